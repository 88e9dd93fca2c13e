import Verif.GConf.Updated
/-
  A task that asks groups to stop is done when they have ended, so when nothing is under way no group that has been asked to stop is left.
-/
namespace Casual.GConf
open Casual.Task

/-! ### Specification -/

/-- Only processes that have been spawned exit. -/
def born (c : Mgr) : Ev → Prop
  | .exit pid => pid < c.st.nextPid
  | _ => True

/-- All events are such. -/
def Born : Mgr → List Ev → Prop
  | _, [] => True
  | c, e :: es => born c e ∧ Born (step c e) es

/-! ### Proof -/

/-- It waits for the process to end. -/
def Waits (pid : Nat) (u : TUnit Act Body) : Prop := ∃ pids, u.body = .exits pids ∧ pid ∈ pids

/-- All groups that have been asked to stop are waited for. -/
def Cov (st : State) (us : List (TUnit Act Body)) : Prop := ∀ p ∈ st.groups.map (·.pid), .stop p ∈ st.sent → ∃ u ∈ us, Waits p u

/-- The message is not about a group that there is or will be. -/
def Clear (m : Msg) (st : State) : Prop := ∀ p, m = .exit p → p < st.nextPid ∧ p ∉ st.groups.map (·.pid)

theorem act_pids (a : Act) (b : Body) (st : State) : st.nextPid ≤ (act a b st).1.nextPid ∧ (∀ p ∈ (act a b st).1.groups.map (·.pid), p ∈ st.groups.map (·.pid) ∨ st.nextPid ≤ p)
    ∧ ∀ p, .stop p ∈ (act a b st).1.sent → .stop p ∈ st.sent ∨ ((act a b st).2.2 = .success ∧ ∃ pids, (act a b st).2.1 = .exits pids ∧ p ∈ pids) := by
  cases a with
  | added s cs =>
    show _ ≤ (added s cs b st).1.nextPid ∧ (∀ p ∈ (added s cs b st).1.groups.map (·.pid), _) ∧ ∀ p, .stop p ∈ (added s cs b st).1.sent → _
    obtain ⟨h1, h2, _, h4, _, h6⟩ := spawns_spec cs st
    rw [added_state]
    refine ⟨h4, fun p hp => ?_, fun p hp => .inl ?_⟩
    · dsimp only at hp
      rw [List.map_append, h1] at hp
      rcases List.mem_append.1 hp with hp | hp
      · exact .inl hp
      · obtain ⟨g, hg, rfl⟩ := List.mem_map.1 hp
        exact .inr (h6 g hg).1
    · dsimp only at hp
      rw [h2] at hp
      exact hp
  | modified s cs =>
    obtain ⟨h1, h2, _, h4, _⟩ := modifyAll_spec s cs st
    have : (modified s cs b st).1 = (modifyAll s cs st).1 := by
      unfold modified
      split <;> rename_i e <;> rw [e]
    show _ ≤ (modified s cs b st).1.nextPid ∧ (∀ p ∈ (modified s cs b st).1.groups.map (·.pid), _) ∧ ∀ p, .stop p ∈ (modified s cs b st).1.sent → _
    rw [this, h1, h2, h4]
    exact ⟨Nat.le_refl _, fun _ h => .inl h, fun _ h => .inl h⟩
  | removed s cs =>
    show _ ≤ (removed s cs b st).1.nextPid ∧ (∀ p ∈ (removed s cs b st).1.groups.map (·.pid), _)
      ∧ ∀ p, .stop p ∈ (removed s cs b st).1.sent → _ ∨ ((removed s cs b st).2.2 = _ ∧ ∃ pids, (removed s cs b st).2.1 = _ ∧ _)
    unfold removed
    split
    · exact ⟨Nat.le_refl _, fun _ h => .inl h, fun _ h => .inl h⟩
    · rename_i pids _
      refine ⟨Nat.le_refl _, fun _ h => .inl h, fun p h => ?_⟩
      rcases List.mem_append.1 h with h | h
      · exact .inl h
      · obtain ⟨q, hq, e⟩ := List.mem_map.1 h
        cases e
        exact .inr ⟨rfl, _, rfl, hq⟩
  | reply k =>
    refine ⟨Nat.le_refl _, fun _ h => .inl h, fun p h => .inl ?_⟩
    rcases List.mem_append.1 h with h | h
    · exact h
    · rcases List.mem_singleton.1 h with h
      cases h
  | booted => exact ⟨Nat.le_refl _, fun _ h => .inl h, fun _ h => .inl h⟩

theorem start_cov (m : Msg) : ∀ (us : List (TUnit Act Body)) (st : State) (D : List (TUnit Act Body)), Stopped st [] → Clear m st → Cov st D →
    Stopped (groupStart ops us st).1 [] ∧ Clear m (groupStart ops us st).1 ∧ Cov (groupStart ops us st).1 (D ++ (groupStart ops us st).2.1) := by
  intro us
  induction us with
  | nil => intro st D h1 h2 h3; exact ⟨h1, h2, by simpa [groupStart] using h3⟩
  | cons u us ih =>
    intro st D h1 h2 h3
    have hu : Stopped (unitStart ops u st).1 [] ∧ Clear m (unitStart ops u st).1 ∧ ∀ p ∈ (unitStart ops u st).1.groups.map (·.pid), .stop p ∈ (unitStart ops u st).1.sent →
        (∃ u ∈ D, Waits p u) ∨ ((unitStart ops u st).2.2 = .success ∧ Waits p (unitStart ops u st).2.1) := by
      unfold unitStart
      split
      · rename_i a _
        obtain ⟨a1, a2, a3⟩ := act_pids a u.body st
        have hs := (stopped_kept.act a u.body st [] trivial trivial h1).1
        refine ⟨hs, fun p e => ?_, fun p hp hstop => ?_⟩
        · obtain ⟨c1, c2⟩ := h2 p e
          refine ⟨Nat.lt_of_lt_of_le c1 a1, fun hp => ?_⟩
          rcases a2 p hp with hp | hp
          · exact c2 hp
          · omega
        · rcases a3 p hstop with hstop | ⟨e, hw⟩
          · rcases a2 p hp with hp | hp
            · exact .inl (h3 p hp hstop)
            · have := h1.2 p hstop
              omega
          · exact .inr ⟨e, hw⟩
      · exact ⟨h1, h2, fun p hp hs => .inl (h3 p hp hs)⟩
    unfold groupStart
    dsimp only
    split
    · rename_i e
      have h := ih (unitStart ops u st).1 (D ++ [(unitStart ops u st).2.1]) hu.1 hu.2.1 fun p hp hs => by
        rcases hu.2.2 p hp hs with ⟨v, hv, hw⟩ | ⟨_, hw⟩
        · exact ⟨v, List.mem_append_left _ hv, hw⟩
        · exact ⟨_, List.mem_append_right _ (List.mem_singleton.2 rfl), hw⟩
      refine ⟨h.1, h.2.1, ?_⟩
      have h2 := h.2.2
      rw [List.append_assoc] at h2
      exact h2
    · rename_i e
      refine ih (unitStart ops u st).1 D hu.1 hu.2.1 fun p hp hs => ?_
      rcases hu.2.2 p hp hs with h | ⟨h, _⟩
      · exact h
      · rw [e] at h; cases h

theorem unitMsg_state (m : Msg) (u : TUnit Act Body) (st : State) : (unitMsg ops m u st).1 = st := by
  unfold unitMsg
  split
  · rename_i h e
    exact handle_state e st
  · rfl

theorem groupMsg_cov (m : Msg) (st : State) (p : Nat) (hp : m ≠ .exit p) : ∀ us : List (TUnit Act Body), (groupMsg ops m us st).1 = st
    ∧ ((∃ u ∈ us, Waits p u) → ∃ u ∈ (groupMsg ops m us st).2.1, Waits p u) := by
  intro us
  induction us with
  | nil => exact ⟨rfl, id⟩
  | cons u us ih =>
    have hw : Waits p u → (unitMsg ops m u st).2.2 = .pending ∧ Waits p (unitMsg ops m u st).2.1 := by
      rintro ⟨pids, e, hm⟩
      unfold unitMsg
      have he : ops.handle u.body m = handle u.body m := rfl
      rw [he, e]
      cases m with
      | exit q =>
        have hq : p ≠ q := fun h => hp (by rw [h])
        have hm2 : p ∈ pids.filter (· ≠ q) := List.mem_filter.2 ⟨hm, by simpa using hq⟩
        refine ⟨?_, ⟨_, rfl, hm2⟩⟩
        show (if pids.filter (· ≠ q) = [] then Dispatch.done else .pending) = _
        rw [if_neg (List.ne_nil_of_mem hm2)]
      | reply s q => exact ⟨rfl, ⟨pids, e, hm⟩⟩
    unfold groupMsg
    dsimp only
    rw [unitMsg_state]
    split
    · refine ⟨ih.1, ?_⟩
      rintro ⟨v, hv, h⟩
      rcases List.mem_cons.1 hv with rfl | hv
      · exact ⟨_, List.mem_cons_self .., (hw h).2⟩
      · obtain ⟨w, hw2, h2⟩ := ih.2 ⟨v, hv, h⟩
        exact ⟨w, List.mem_cons_of_mem _ hw2, h2⟩
    · rename_i e
      refine ⟨ih.1, ?_⟩
      rintro ⟨v, hv, h⟩
      rcases List.mem_cons.1 hv with rfl | hv
      · rw [(hw h).1] at e; cases e
      · exact ih.2 ⟨v, hv, h⟩

theorem groupMsg_state (m : Msg) (st : State) : ∀ us : List (TUnit Act Body), (groupMsg ops m us st).1 = st := by
  intro us
  induction us with
  | nil => rfl
  | cons u us ih =>
    unfold groupMsg
    dsimp only
    rw [unitMsg_state]
    split <;> exact ih

theorem group_cov {m : Msg} {st : State} {us : List (TUnit Act Body)} (hc : Clear m st) (h : Cov st us) : Cov st (groupMsg ops m us st).2.1 := by
  intro p hp hs
  refine (groupMsg_cov m st p (fun e => (hc p e).2 hp) us).2 (h p hp hs)

theorem coordMsg_cov (m : Msg) : ∀ (n : Nat) (cs : List (List (TUnit Act Body))) (st : State), cs.length = n → Stopped st [] → Clear m st → Cov st (cs.headD []) →
    Stopped (coordMsg ops m cs st).1 [] ∧ Cov (coordMsg ops m cs st).1 ((coordMsg ops m cs st).2.1.headD []) := by
  intro n
  induction n with
  | zero =>
    intro cs st hn h1 _ h3
    rw [List.eq_nil_of_length_eq_zero hn] at h3 ⊢
    unfold coordMsg
    exact ⟨h1, h3⟩
  | succ n ih =>
    intro cs st hn h1 h2 h3
    match cs, hn, h3 with
    | g :: rest, hn, h3 =>
      have h4 : Cov st (groupMsg ops m g st).2.1 := group_cov h2 h3
      unfold coordMsg
      dsimp only
      rw [groupMsg_state]
      split
      · rename_i e
        have e : (groupMsg ops m g st).2.1 = [] := List.isEmpty_iff.1 e
        rw [e] at h4
        split
        · exact ⟨h1, h4⟩
        · rename_i nx rest'
          obtain ⟨b1, b2, b3⟩ := start_cov m nx st [] h1 h2 h4
          exact ih _ _ (by simpa using hn) b1 b2 b3
      · exact ⟨h1, h4⟩

/-- All groups that have been asked to stop are waited for by the task that is under way. -/
def CovM (c : Mgr) : Prop := Stopped c.st [] ∧ Cov c.st (c.conts.headD [])

theorem msg_cov {c : Mgr} {m : Msg} (hm : Clear m c.st) (h : CovM c) : CovM (c.msg m) := coordMsg_cov m _ c.conts c.st rfl h.1 hm h.2

theorem push_cov (m : Msg) {c : Mgr} (us : List (Act × Body)) (hm : Clear m c.st) (h : CovM c) : CovM (c.push us) ∧ Clear m (c.push us).st := by
  unfold Mgr.push Coord.step coordThen
  dsimp only
  split
  · rename_i hl
    have hc : c.conts = [] := by
      cases hc : c.conts with
      | nil => rfl
      | cons => rw [hc] at hl; simp at hl
    have h2 := h.2
    rw [hc] at h2 ⊢
    unfold coordStart
    simp only [List.nil_append]
    obtain ⟨b1, b2, b3⟩ := start_cov m (mkGroup c.seq us) c.st [] h.1 hm h2
    split
    · rename_i e
      have e := List.isEmpty_iff.1 e
      rw [e] at b3
      exact ⟨⟨b1, b3⟩, b2⟩
    · exact ⟨⟨b1, b3⟩, b2⟩
  · rename_i hl
    refine ⟨⟨h.1, ?_⟩, hm⟩
    have h2 := h.2
    cases hc : c.conts with
    | nil => rw [hc] at hl; simp at hl
    | cons x xs => rw [hc] at h2; exact h2

/-- A message that is about nothing. -/
theorem clear_reply (st : State) : Clear (.reply .inb 0) st := fun _ e => by cases e

theorem task_cov {c : Mgr} (mk : List Conf → Act) (cs : List Conf) (h : CovM c) : CovM (c.task mk cs) := by
  unfold Mgr.task
  split
  · exact h
  · exact (push_cov _ _ (clear_reply _) h).1

theorem conform_cov {c : Mgr} (wanted : List Conf) (h : CovM c) : CovM (conform c wanted) := by
  unfold conform
  dsimp only
  split
  · exact h
  · exact task_cov _ _ (task_cov _ _ (task_cov _ _ (task_cov _ _ (task_cov _ _ (task_cov _ _ h)))))

theorem step_cov {c : Mgr} (e : Ev) (hb : born c e) (h : CovM c) : CovM (step c e) := by
  unfold step
  split
  · exact h
  · cases e with
    | exit pid =>
      show CovM (onExit c pid)
      unfold onExit
      dsimp only
      split
      · rename_i e
        refine msg_cov (fun p hp => ?_) h
        cases hp
        refine ⟨hb, fun hp => ?_⟩
        obtain ⟨g, hg, rfl⟩ := List.mem_map.1 hp
        rw [find_proc h.1.1.1 hg] at e
        cases e
      · rename_i g _
        have h1 : CovM (c.on fun st => { st with groups := st.groups.eraseP (Group.isProc pid) }) :=
          ⟨stopped_steady.exit _ _ _ h.1, fun p hp hs => h.2 p ((List.Sublist.map _ List.eraseP_sublist).subset hp) hs⟩
        have h2 : Clear (.exit pid) (c.on fun st => { st with groups := st.groups.eraseP (Group.isProc pid) }).st := by
          intro p hp
          cases hp
          refine ⟨hb, fun hp => ?_⟩
          have hp : pid ∈ (c.st.groups.eraseP (Group.isProc pid)).map (·.pid) := hp
          rw [erase_proc h.1.1.1] at hp
          obtain ⟨g, hg, e⟩ := List.mem_map.1 hp
          have := (List.mem_filter.1 hg).2
          simp [e] at this
        split
        · have := push_cov _ [(.added g.conf.side [g.conf], .none)] h2 h1
          exact msg_cov this.2 this.1
        · exact msg_cov h2 h1
    | connect s pid =>
      refine ⟨stopped_steady.connect _ _ _ _ h.1, fun p hp hs => h.2 p ?_ hs⟩
      have hp : p ∈ (changeFirst (fun g => g.conf.side == s && g.pid == pid) (fun g => { g with ipc := true, told := some g.conf }) c.st.groups).map (·.pid) := hp
      rw [changeFirst_map (f := fun g => { g with ipc := true, told := some g.conf }) (·.pid) (fun _ => rfl)] at hp
      exact hp
    | reply s pid => exact msg_cov (fun _ e => by cases e) h
    | update k w =>
      refine (push_cov _ _ (clear_reply _) (conform_cov _ ?_)).1
      exact ⟨stopped_steady.level _ _ _ h.1, h.2⟩
    | shutdown =>
      refine conform_cov _ ?_
      exact ⟨stopped_steady.level _ _ _ h.1, h.2⟩

theorem run_cov : ∀ (es : List Ev) (c : Mgr), Born c es → CovM c → CovM (run c es)
  | [], _, _, h => h
  | e :: es, c, hb, h => run_cov es (step c e) hb.2 (step_cov e hb.1 h)

theorem boot_cov (fails : List Bool) (wanted : List Conf) : CovM (boot fails wanted) := by
  unfold boot
  refine (push_cov _ _ (clear_reply _) (conform_cov (c := { st := { fails := fails } }) _ ⟨⟨⟨List.nodup_nil, ?_, ?_⟩, ?_⟩, ?_⟩)).1
  · intro g hg; cases hg
  · intro g hg; cases hg
  · intro g hg; cases hg
  · intro g hg; cases hg

theorem cov_nil {c : Mgr} (h : CovM c) (hc : c.conts = []) : ∀ g ∈ c.st.groups, .stop g.pid ∉ c.st.sent := by
  intro g hg hs
  have h2 := h.2
  rw [hc] at h2
  obtain ⟨u, hu, _⟩ := h2 g.pid (List.mem_map_of_mem hg) hs
  cases hu

/-- At all times, whatever has been posted, and whatever has happened: when nothing is under way, all groups that have been asked to stop have ended. -/
theorem ended (fails : List Bool) (wanted : List Conf) (es : List Ev) (hb : Born (boot fails wanted) es) (hc : (run (boot fails wanted) es).conts = []) :
    ∀ g ∈ (run (boot fails wanted) es).st.groups, .stop g.pid ∉ (run (boot fails wanted) es).st.sent := cov_nil (run_cov es _ hb (boot_cov fails wanted)) hc

theorem live_nil {st : State} (h : ∀ g ∈ st.groups, .stop g.pid ∉ st.sent) : st.live = st.groups.map (·.conf) := by
  unfold State.live
  rw [List.filter_eq_self.2]
  intro g hg
  simpa using h g hg

theorem unique_nodup {cs : List Conf} (h : Unique cs) : cs.Nodup := List.Pairwise.of_map _ (fun _ _ hn e => hn (by rw [e])) h

/-- If a configuration is posted, where no alias is used twice, when nothing is under way, and until it is done nothing else is posted, no group dies unasked and all processes can be started: when it is done
the groups that there are are those that were posted. -/
theorem updated_partial (fails : List Bool) (wanted0 : List Conf) (es0 : List Ev) (hb0 : Born (boot fails wanted0) es0) (hc : (run (boot fails wanted0) es0).conts = [])
    (hd : (run (boot fails wanted0) es0).st.done = false) (hf : (run (boot fails wanted0) es0).st.fails = []) (hu0 : Unique ((run (boot fails wanted0) es0).st.groups.map (·.conf)))
    (k : Nat) (wanted : List Conf) (hu : Unique wanted) (es : List Ev) (hq : Calm (step (run (boot fails wanted0) es0) (.update k wanted)) es)
    (hb : Born (step (run (boot fails wanted0) es0) (.update k wanted)) es) (hdone : (run (step (run (boot fails wanted0) es0) (.update k wanted)) es).conts = []) :
    ((run (step (run (boot fails wanted0) es0) (.update k wanted)) es).st.groups.map (·.conf)).Perm wanted := by
  have h := updated_live fails wanted0 es0 hc hd hf hu0 (ended fails wanted0 es0 hb0 hc) k wanted hu es hq hdone
  have h2 := cov_nil (run_cov es _ hb (step_cov (.update k wanted) trivial (run_cov es0 _ hb0 (boot_cov fails wanted0)))) hdone
  rw [live_nil h2] at h
  exact (List.perm_ext_iff_of_nodup (unique_nodup h.2) (unique_nodup hu)).2 h.1

/-- The same for the configuration at boot. -/
theorem booted_partial (wanted : List Conf) (hu : Unique wanted) (es : List Ev) (hq : Calm (boot [] wanted) es) (hb : Born (boot [] wanted) es) (hdone : (run (boot [] wanted) es).conts = []) :
    ((run (boot [] wanted) es).st.groups.map (·.conf)).Perm wanted := by
  have h := booted_live wanted hu es hq hdone
  rw [live_nil (ended [] wanted es hb hdone)] at h
  exact (List.perm_ext_iff_of_nodup (unique_nodup h.2) (unique_nodup hu)).2 h.1

/-! ### Shutdown is never left -/

/-- The manager shuts down. -/
def Shut (st : State) (_ : List Act) : Prop := st.level = .shutdown

theorem shut_kept : Kept Shut (fun _ => True) (fun _ => True) := by
  refine kept_of fun a b st W h => ?_
  have h : st.level = .shutdown := h
  have hup : st.up.level = .shutdown := by unfold State.up; rw [h]; rfl
  cases a with
  | added s cs =>
    show (added s cs b st).1.level = .shutdown
    rw [added_state]
    exact (spawns_spec cs st).2.2.1.trans h
  | modified s cs =>
    show (modified s cs b st).1.level = .shutdown
    have : (modified s cs b st).1 = (modifyAll s cs st).1 := by
      unfold modified
      split <;> rename_i e <;> rw [e]
    rw [this]
    exact (modifyAll_spec s cs st).2.2.1.trans h
  | removed s cs =>
    show (removed s cs b st).1.level = .shutdown
    unfold removed
    split <;> exact h
  | reply c => exact hup
  | booted => exact hup

theorem step_shut {c : Mgr} (e : Ev) (h : GoodM Shut (fun _ => True) (fun _ => True) c) : GoodM Shut (fun _ => True) (fun _ => True) (step c e) := by
  have hi : Free Shut := fun _ _ _ _ h => h
  unfold step
  split
  · exact h
  · cases e with
    | exit pid => exact onExit_good shut_kept hi pid (fun _ hj => hj) h
    | connect s pid => exact on_good h fun _ hj => hj
    | reply s pid => exact msg_good shut_kept _ h
    | update k w =>
      have h1 : GoodM Shut (fun _ => True) (fun _ => True) (conform (c.on fun st => { st with level := if st.level = .running then .configuring else st.level }) w) :=
        conform_good shut_kept hi _ (on_good h fun _ hj => by
          show (if c.st.level = .running then Level.configuring else c.st.level) = .shutdown
          have hj : c.st.level = .shutdown := hj
          rw [hj]; rfl)
      exact push_good shut_kept h1.holds h1.units h1.front (fun _ _ => ⟨trivial, trivial⟩)
    | shutdown => exact conform_good shut_kept hi _ (on_good h fun _ _ => rfl)

/-- Whatever happens after shutdown: the manager shuts down. -/
theorem shut_stays (fails : List Bool) (wanted : List Conf) (es es' : List Ev) (hd : (run (boot fails wanted) es).st.done = false) :
    (run (step (run (boot fails wanted) es) .shutdown) es').st.level = .shutdown := by
  have h0 := run_good sound_kept (fun _ _ _ h => h) sound_steady fails wanted ⟨List.nodup_nil, (by intro g hg; cases hg), (by intro g hg; cases hg)⟩ es
  generalize run (boot fails wanted) es = c at *
  have h1 : GoodM Shut (fun _ => True) (fun _ => True) (step c .shutdown) := by
    unfold step
    rw [hd]
    exact conform_good shut_kept (fun _ _ _ _ h => h) _ ⟨rfl, h0.units, h0.front⟩
  have : ∀ (es : List Ev) (c : Mgr), GoodM Shut (fun _ => True) (fun _ => True) c → GoodM Shut (fun _ => True) (fun _ => True) (run c es) := by
    intro es
    induction es with
    | nil => intro c h; exact h
    | cons e es ih => intro c h; exact ih _ (step_shut e h)
  exact (this es' _ h1).holds

/-- If shutdown comes when nothing is under way, and nothing is posted after that: when it is done all groups have ended, and so has the manager. -/
theorem shutdown_partial (fails : List Bool) (wanted0 : List Conf) (es0 : List Ev) (hb0 : Born (boot fails wanted0) es0) (hc : (run (boot fails wanted0) es0).conts = [])
    (hd : (run (boot fails wanted0) es0).st.done = false) (hf : (run (boot fails wanted0) es0).st.fails = []) (hu0 : Unique ((run (boot fails wanted0) es0).st.groups.map (·.conf)))
    (es : List Ev) (hq : Calm (step (run (boot fails wanted0) es0) .shutdown) es) (hb : Born (step (run (boot fails wanted0) es0) .shutdown) es)
    (hdone : (run (step (run (boot fails wanted0) es0) .shutdown) es).conts = []) :
    (run (step (run (boot fails wanted0) es0) .shutdown) es).st.groups = [] ∧ (run (step (run (boot fails wanted0) es0) .shutdown) es).st.done = true := by
  have h := shutdown_live fails wanted0 es0 hc hd hf hu0 (ended fails wanted0 es0 hb0 hc) es hq hdone
  have h2 := cov_nil (run_cov es _ hb (step_cov .shutdown trivial (run_cov es0 _ hb0 (boot_cov fails wanted0)))) hdone
  have h3 : (run (step (run (boot fails wanted0) es0) .shutdown) es).st.groups = [] := List.eq_nil_iff_forall_not_mem.2 fun g hg => h2 g hg (h g hg)
  refine ⟨h3, ?_⟩
  unfold State.done
  rw [h3, shut_stays fails wanted0 es0 es hd]
  rfl

end Casual.GConf
