import Verif.QManager.Ready

/-!
  The queue manager: its configuration and its children (C134 - C141).
-/
namespace Casual.QManager

open Casual.Task Casual.Config

/-- A run, then a run. -/
theorem run_append (env : Env) (dg : Nat) (model : Model) (np : Pid) (xs ys : List (Env × Input)) :
    State.run env dg model np (xs ++ ys) = ys.foldl State.step (State.run env dg model np xs) := by
  unfold State.run
  rw [List.foldl_append]

theorem foldl_alive : ∀ (xs : List (Env × Input)) (s : State), Alive s.core → NoReuse (xs.foldl State.step s).core.log →
    Alive (xs.foldl State.step s).core
  | [], _, h, _ => h
  | x :: xs, s, h, hn => by
    have h1 : NoReuse (s.step x).core.log := by
      obtain ⟨ys, e⟩ := foldl_log xs (s.step x)
      rw [List.foldl_cons, e] at hn
      exact hn.prefix
    exact foldl_alive xs _ (step_alive h x.1 x.2 h1) hn

theorem run_alive (env : Env) (dg : Nat) (model : Model) (np : Pid) (xs : List (Env × Input))
    (hn : NoReuse (State.run env dg model np xs).core.log) : Alive (State.run env dg model np xs).core :=
  foldl_alive xs _ (init_alive env dg model np) hn

section
variable (env : Env) (dg : Nat) (model : Model) (np : Pid)

/-! ### C134: the configuration -/

/-- C134.  A request for the configuration is answered, at once, with what the queue groups
and the forward groups that are alive were spawned with, in the order of their spawning. -/
theorem config_reply_lists_live (xs : List (Env × Input)) (env' : Env) (corr : Corr) (p : Handle)
    (hn : NoReuse (State.run env dg model np xs).core.log) (hr : env'.reach p.ipc = true) :
    (State.run env dg model np (xs ++ [(env', .configRequest corr p)])).core.log =
      (State.run env dg model np xs).core.log ++ [.inp (.configRequest corr p), .out (.configReply p.ipc corr
        { groups := (liveGroups (State.run env dg model np xs).core.log).map (·.2)
          forwards := (liveForwards (State.run env dg model np xs).core.log).map (·.2) })] := by
  have ha := run_alive env dg model np xs hn
  rw [run_append]
  generalize State.run env dg model np xs = s at *
  rw [← ha.1, ← ha.2]
  show (Core.send _ env' p.ipc _).log = _
  unfold Core.send
  rw [if_pos hr]
  show s.core.log ++ [_] ++ [_] = _
  rw [List.append_assoc]
  simp [Core.configuration, Core.gs, Core.fs, List.map_map, Function.comp_def, State.onCore]

end

/-! ### C135: updates -/

/-- C135.  An update is answered at most once. -/
theorem update_answered_at_most_once (env : Env) (dg : Nat) (model : Model) (np : Pid) (xs : List (Env × Input)) (dst : Ipc) (corr : Corr) :
    updateReplies dst corr (State.run env dg model np xs).core.log ≤ updates dst corr (State.run env dg model np xs).core.log := by
  have := run_answers env dg model np xs dst corr
  unfold Answers at this
  omega

theorem foldl_answers {dst : Ipc} {corr : Corr} : ∀ (xs : List (Env × Input)) (s : State), Answers dst corr s → Answers dst corr (xs.foldl State.step s)
  | [], _, h => h
  | x :: xs, s, h => foldl_answers xs _ (step_answers h x.1 x.2)

/-- What an answered update had to see to. -/
theorem update_answered_met (env : Env) (dg : Nat) (model : Model) (np : Pid) (xs ys : List (Env × Input)) (env' : Env)
    (corr : Corr) (p : Handle) (dg' : Nat) (wanted : Model) (j : Job)
    (hu : updates p.ipc corr (State.run env dg model np (xs ++ (env', .configUpdate corr p dg' wanted) :: ys)).core.log ≤ 1)
    (ha : Item.out (.updateReply p.ipc corr) ∈ (State.run env dg model np (xs ++ (env', .configUpdate corr p dg' wanted) :: ys)).core.log)
    (hj : j.Of (State.run env dg model np xs).core wanted) :
    j.Met (State.run env dg model np (xs ++ (env', .configUpdate corr p dg' wanted) :: ys)).core := by
  have hans := run_answers env dg model np (xs ++ (env', .configUpdate corr p dg' wanted) :: ys) p.ipc corr
  rw [run_append, List.foldl_cons] at *
  have ho := update_owing (State.run env dg model np xs) env' corr p dg' wanted hj
  refine answered_met (foldl_owing ys ho ?_) hans hu ha
  intro n pid alias e
  subst e
  obtain ⟨zs, e⟩ := step_log (State.run env dg model np xs) (env', .configUpdate corr p dg' wanted)
  rw [e, List.length_append]
  have := hj.1
  omega

/-- C135.  When an update - the only one of its requester with its correlation - has been
answered, everything that was alive and is not wanted any more has exited; and everything
that is wanted and was not there has been spawned for it, since, and has connected (or exited). -/
theorem update_answered_after (env : Env) (dg : Nat) (model : Model) (np : Pid) (xs ys : List (Env × Input)) (env' : Env)
    (corr : Corr) (p : Handle) (dg' : Nat) (wanted : Model) (before after : List Item)
    (hb : before = (State.run env dg model np xs).core.log)
    (hl : before ++ after = (State.run env dg model np (xs ++ (env', .configUpdate corr p dg' wanted) :: ys)).core.log)
    (hn : NoReuse (before ++ after))
    (hu : updates p.ipc corr (before ++ after) ≤ 1)
    (ha : Item.out (.updateReply p.ipc corr) ∈ before ++ after) :
    (∀ q ∈ liveGroups before, (∀ x ∈ wanted.groups, x.alias ≠ q.2.alias) → exited (before ++ after) q.1 = true) ∧
    (∀ q ∈ liveForwards before, (∀ x ∈ wanted.forwards, x.alias ≠ q.2.alias) → exited (before ++ after) q.1 = true) ∧
    (∀ cfg ∈ wanted.groups, (∀ q ∈ liveGroups before, q.2.alias ≠ cfg.alias) →
      ∃ pid, Item.out (.spawnGroup pid cfg) ∈ after ∧
        ((∃ h : Handle, h.pid = pid ∧ Item.inp (.groupConnect h) ∈ before ++ after) ∨ exited (before ++ after) pid = true)) ∧
    (∀ cfg ∈ wanted.forwards, (∀ q ∈ liveForwards before, q.2.alias ≠ cfg.alias) →
      ∃ pid, Item.out (.spawnForward pid cfg) ∈ after ∧
        ((∃ h : Handle, h.pid = pid ∧ Item.inp (.forwardConnect h) ∈ before ++ after) ∨ exited (before ++ after) pid = true)) := by
  have hal := run_alive env dg model np xs (by rw [← hb]; exact hn.prefix)
  have key := fun j => update_answered_met env dg model np xs ys env' corr p dg' wanted j (by rw [← hl]; exact hu) (by rw [← hl]; exact ha)
  have hlen : before.length = (State.run env dg model np xs).core.log.length := by rw [hb]
  have hdrop : (before ++ after).drop before.length = after := by simp
  unfold Alive at hal
  rw [← hb] at hal
  refine ⟨?_, ?_, ?_, ?_⟩
  · intro q hq hx
    have := key (.rmGroup q.1 q.2) ⟨by rw [hal.1]; exact hq, hx⟩
    unfold Job.Met at this
    rw [← hl] at this
    exact this
  · intro q hq hx
    have := key (.rmForward q.1 q.2) ⟨by rw [hal.2]; exact hq, hx⟩
    unfold Job.Met at this
    rw [← hl] at this
    exact this
  · intro cfg hc hx
    obtain ⟨_, pid, hp, hd⟩ := key (.addGroup before.length cfg) ⟨by rw [hlen]; exact Nat.le_refl _, hc, by rw [hal.1]; exact hx⟩
    rw [← hl, hdrop] at hp
    rw [← hl] at hd
    refine ⟨pid, ?_, hd⟩
    obtain ⟨x, hxm, e⟩ := List.mem_filterMap.mp hp
    split at e
    · injection e with e
      injection e with e1 e2
      subst e1 e2
      exact hxm
    · cases e
  · intro cfg hc hx
    obtain ⟨_, pid, hp, hd⟩ := key (.addForward before.length cfg) ⟨by rw [hlen]; exact Nat.le_refl _, hc, by rw [hal.2]; exact hx⟩
    rw [← hl, hdrop] at hp
    rw [← hl] at hd
    refine ⟨pid, ?_, hd⟩
    obtain ⟨x, hxm, e⟩ := List.mem_filterMap.mp hp
    split at e
    · injection e with e
      injection e with e1 e2
      subst e1 e2
      exact hxm
    · cases e

/-- C141, the part that holds.  When an update has been answered, and the configuration is asked for, the reply has every
queue group that was not there before the update and is wanted, as it is wanted (or the group has exited, by itself), and
every group in it either was there before or has been spawned since.  Missing: the groups that are modified; refuted below. -/
theorem config_after_update_partial (env : Env) (dg : Nat) (model : Model) (np : Pid) (xs ys : List (Env × Input)) (env' env'' : Env)
    (corr : Corr) (p : Handle) (dg' : Nat) (wanted : Model) (before after : List Item) (k : Corr) (r : Handle)
    (hb : before = (State.run env dg model np xs).core.log)
    (hl : before ++ after = (State.run env dg model np (xs ++ (env', .configUpdate corr p dg' wanted) :: ys)).core.log)
    (hn : NoReuse (before ++ after))
    (hu : updates p.ipc corr (before ++ after) ≤ 1)
    (ha : Item.out (.updateReply p.ipc corr) ∈ before ++ after) (hr : env''.reach r.ipc = true) :
    ∃ m, (State.run env dg model np ((xs ++ (env', .configUpdate corr p dg' wanted) :: ys) ++ [(env'', .configRequest k r)])).core.log =
        before ++ after ++ [.inp (.configRequest k r), .out (.configReply r.ipc k m)] ∧
      (∀ cfg ∈ wanted.groups, (∀ q ∈ liveGroups before, q.2.alias ≠ cfg.alias) →
        cfg ∈ m.groups ∨ ∃ pid, Item.out (.spawnGroup pid cfg) ∈ after ∧ exited (before ++ after) pid = true) ∧
      (∀ cfg ∈ m.groups, (∃ pid, Item.out (.spawnGroup pid cfg) ∈ after) ∨
        ∃ pid, (pid, cfg) ∈ liveGroups before ∧ ∃ x ∈ wanted.groups, x.alias = cfg.alias) := by
  have hr := config_reply_lists_live env dg model np (xs ++ (env', .configUpdate corr p dg' wanted) :: ys) env'' k r (by rw [← hl]; exact hn) hr
  have hu' := update_answered_after env dg model np xs ys env' corr p dg' wanted before after hb hl hn hu ha
  rw [← hl] at hr
  refine ⟨_, hr, ?_, ?_⟩
  · intro cfg hc hx
    obtain ⟨pid, hp, _⟩ := hu'.2.2.1 cfg hc hx
    by_cases he : exited (before ++ after) pid = true
    · exact Or.inr ⟨pid, hp, he⟩
    · refine Or.inl (List.mem_map.mpr ⟨(pid, cfg), List.mem_filter.mpr ⟨?_, by simpa using he⟩, rfl⟩)
      exact List.mem_filterMap.mpr ⟨_, List.mem_append.mpr (Or.inr hp), rfl⟩
  · intro cfg hc
    obtain ⟨q, hq, rfl⟩ := List.mem_map.mp hc
    obtain ⟨hq, hx⟩ := List.mem_filter.mp hq
    have hx : exited (before ++ after) q.1 = false := by simpa using hx
    rw [spawnedGroups_append] at hq
    rcases List.mem_append.mp hq with hq | hq
    · right
      have hlive : q ∈ liveGroups before := by
        refine List.mem_filter.mpr ⟨hq, ?_⟩
        rw [exited_append, Bool.or_eq_false_iff] at hx
        rw [hx.1]; rfl
      refine ⟨q.1, hlive, ?_⟩
      apply Classical.byContradiction
      intro hno
      have := hu'.1 q hlive (fun x hx he => hno ⟨x, hx, he⟩)
      rw [this] at hx
      cases hx
    · left
      obtain ⟨x, hxm, e⟩ := List.mem_filterMap.mp hq
      split at e
      · injection e with e
        subst e
        exact ⟨_, hxm⟩
      · cases e

/-! ### C136: what is modified -/

/-- C136, the part that holds.  When an update has been answered, every queue group that was
alive, and whose configuration is another in what is wanted - the first with its alias, if
there are many - has since answered a configuration, or has exited.  Missing: that the
configuration it has answered is the new one; refuted below. -/
theorem update_modified_group_answered_partial (env : Env) (dg : Nat) (model : Model) (np : Pid) (xs ys : List (Env × Input)) (env' : Env)
    (corr : Corr) (p : Handle) (dg' : Nat) (wanted : Model) (before after : List Item)
    (hb : before = (State.run env dg model np xs).core.log)
    (hl : before ++ after = (State.run env dg model np (xs ++ (env', .configUpdate corr p dg' wanted) :: ys)).core.log)
    (hn : NoReuse (before ++ after))
    (hu : updates p.ipc corr (before ++ after) ≤ 1)
    (ha : Item.out (.updateReply p.ipc corr) ∈ before ++ after)
    (q : Pid × GroupCfg) (hq : (liveGroups before).find? (·.2.alias == q.2.alias) = some q)
    (x : GroupCfg) (hx : x ∈ wanted.groups) (hxa : x.alias = q.2.alias) (hne : ∀ r ∈ liveGroups before, r.2 ≠ x) :
    (∃ h qs, h.pid = q.1 ∧ Item.inp (.groupReply h qs) ∈ after) ∨ exited (before ++ after) q.1 = true := by
  have hal := run_alive env dg model np xs (by rw [← hb]; exact hn.prefix)
  unfold Alive at hal
  rw [← hb] at hal
  have hlen : before.length = (State.run env dg model np xs).core.log.length := by rw [hb]
  have hdrop : (before ++ after).drop before.length = after := by simp
  have := update_answered_met env dg model np xs ys env' corr p dg' wanted (.modGroup before.length q.1 q.2.alias)
    (by rw [← hl]; exact hu) (by rw [← hl]; exact ha)
    ⟨by rw [hlen]; exact Nat.le_refl _, ⟨q, by rw [hal.1]; exact hq, rfl⟩, x, hx, hxa, by rw [hal.1]; exact hne⟩
  obtain ⟨_, hm⟩ := this
  rw [← hl, hdrop] at hm
  exact hm.symm

/-! ### C137: shutdown -/

theorem Minded.core {j : Job} {s : State} (h : Minded j s) {c : Core} (he : Evolves s.core c) : Minded j { s with core := c } :=
  (jobDuty ⟨fun _ => true⟩ j).sees he h

theorem Minded.taskMsg {j : Job} {s : State} (h : Minded j s) (env : Env) (m : TMsg) (hm : MsgLogged j m s.core) : Minded j (s.taskMsg env m) :=
  (jobMsg env j m).onMsgAll s.tasks s.core hm h

theorem Minded.conform {j : Job} {s : State} (h : Minded j s) (env : Env) (current wanted : Model) : Minded j (s.conform env current wanted) := by
  unfold State.conform
  exact (((((h.thenIf env _ _ _).thenIf env _ _ _).thenIf env _ _ _).thenIf env _ _ _).thenIf env _ _ _).thenIf env _ _ _

theorem step_minded {j : Job} {s : State} (h : Minded j s)
    (hlen : ∀ n pid alias, j ≠ .modGroup n pid alias) (env : Env) (i : Input) : Minded j (s.step (env, i)) := by
  rw [step_eq]
  have hl : Minded j { s with core := s.core.logged i } := h.core (Evolves.logged s.core i)
  have mem : Item.inp i ∈ (s.core.logged i).log := List.mem_append.mpr (Or.inr (List.mem_singleton.mpr rfl))
  cases i with
  | lookup l => exact hl.core (Evolves.of_grows (Grows.of_quiet (Quiet.lookupRequest _ env l)))
  | discard k p => exact hl.core (Evolves.of_grows (Grows.of_quiet (Quiet.discardRequest _ env k p)))
  | discoveryLookup k p scope names => exact hl.core (Evolves.of_grows (Grows.send _ env _ _ rfl rfl))
  | discoveryReply k => exact hl.core (Evolves.of_grows (Grows.of_quiet (Quiet.discoveryReply _ env k)))
  | fetchKnown k p => exact hl.core (Evolves.of_grows (Grows.send _ env _ _ rfl rfl))
  | configRequest k p => exact hl.core (Evolves.of_grows (Grows.send _ env _ _ rfl rfl))
  | idle => exact hl.core (Evolves.of_grows (Grows.of_quiet (Quiet.idle _)))
  | abort => exact hl.core (Evolves.of_grows (Grows.of_quiet (Quiet.abort _ env)))
  | configUpdate k p dg wanted =>
    have h1 : Minded j { s with core := { s.core.logged (.configUpdate k p dg wanted) with domainGroups := dg } } :=
      hl.core (Evolves.of_grows (Grows.same rfl rfl rfl))
    exact (h1.conform env _ wanted).taskThen env _ _
  | shutdown =>
    have h1 : Minded j { s with core := ({ s.core.logged .shutdown with runlevel := .shutdown } : Core).discardAll env } := by
      refine hl.core (Evolves.trans (b := { s.core.logged .shutdown with runlevel := .shutdown }) (Evolves.of_grows (Grows.same rfl rfl rfl)) ?_)
      exact Evolves.of_grows (Grows.of_quiet (Quiet.discardAll _ env))
    exact h1.conform env _ {}
  | groupConnect p => exact (hl.taskMsg env (.groupConnect p.pid) ⟨p, rfl, mem⟩).core (Evolves.of_grows (Grows.groupConnect _ env p))
  | forwardConnect p => exact (hl.taskMsg env (.forwardConnect p.pid) ⟨p, rfl, mem⟩).core (Evolves.of_grows (Grows.forwardConnect _ env p))
  | forwardReply p => exact (hl.taskMsg env (.forwardReply p.pid) trivial).core (Evolves.of_grows (Grows.forwardReply _ p))
  | groupReply p qs =>
    refine (hl.taskMsg env (.groupReply p.pid) ?_).core (Evolves.of_grows ((Grows.updateGroup _ p qs).trans (Grows.of_quiet (Quiet.check _ env))))
    intro n pid alias e
    exact absurd e (hlen n pid alias)
  | advertise a => exact hl.core (Evolves.of_grows ((Grows.updateAdvertise _ a).trans (Grows.of_quiet (Quiet.check _ env))))
  | exitEvent pid =>
    have hx : exited (s.core.logged (.exitEvent pid)).log pid = true := exited_logged rfl
    refine (hl.taskMsg env (.exit pid) hx).core (Evolves.remove _ pid ?_)
    exact (mem_spawned_mono (Evolves.of_grows (Grows.taskMsg { s with core := s.core.logged (.exitEvent pid) } env (.exit pid)))).2.2.2 pid hx
  | childExit pid =>
    have hx : exited (s.core.logged (.childExit pid)).log pid = true := exited_logged rfl
    have he : Evolves (s.core.logged (.childExit pid)) ((s.core.logged (.childExit pid)).emit (.exitEvent pid)) :=
      Evolves.of_grows (Grows.emit _ _ rfl rfl)
    exact hl.core (he.trans (Evolves.remove _ pid ((mem_spawned_mono he).2.2.2 pid hx)))
  | ipcDestroyed ipc => exact hl.core (Evolves.of_grows (Grows.same rfl rfl rfl))

theorem foldl_minded {j : Job} (hlen : ∀ n pid alias, j ≠ .modGroup n pid alias) : ∀ (xs : List (Env × Input)) {s : State}, Minded j s →
    Minded j (xs.foldl State.step s)
  | [], _, h => h
  | x :: xs, _, h => foldl_minded hlen xs (step_minded h hlen x.1 x.2)

/-- C137, a part that holds.  Whatever was alive when the manager was told to shut down has
exited when none of its tasks is left.  Missing: what is spawned after that, by the tasks
that were waiting; refuted below. -/
theorem shutdown_stops_children_partial (env : Env) (dg : Nat) (model : Model) (np : Pid) (xs ys : List (Env × Input)) (env' : Env)
    (hn : NoReuse (State.run env dg model np xs).core.log)
    (ht : (State.run env dg model np (xs ++ (env', .shutdown) :: ys)).tasks = []) :
    (∀ q ∈ liveGroups (State.run env dg model np xs).core.log,
      exited (State.run env dg model np (xs ++ (env', .shutdown) :: ys)).core.log q.1 = true) ∧
    (∀ q ∈ liveForwards (State.run env dg model np xs).core.log,
      exited (State.run env dg model np (xs ++ (env', .shutdown) :: ys)).core.log q.1 = true) := by
  have hal := run_alive env dg model np xs hn
  rw [run_append, List.foldl_cons] at *
  generalize State.run env dg model np xs = s at *
  have key : ∀ j : Job, (∀ n pid alias, j ≠ .modGroup n pid alias) → j.Of s.core {} → (¬ ∃ n c, j = .addGroup n c) → (¬ ∃ n c, j = .addForward n c) →
      j.Met (List.foldl State.step (s.step (env', .shutdown)) ys).core := by
    intro j hm hj h1 h2
    have hs : Minded j (s.step (env', .shutdown)) := by
      rw [step_eq]
      let s1 : State := { s with core := ({ s.core.logged .shutdown with runlevel := .shutdown } : Core).discardAll env' }
      have hq := Quiet.discardAll ({ s.core.logged .shutdown with runlevel := .shutdown } : Core) env'
      refine conform_minded s1 env' {} ?_
      have e1 : s1.core.gs = s.core.gs := congrArg (List.map fun g : Entity GroupCfg => (g.process.pid, g.configuration)) hq.groups
      have e2 : s1.core.fs = s.core.fs := congrArg (List.map fun g : Entity FwdCfg => (g.process.pid, g.configuration)) hq.forwards
      cases j with
      | rmGroup pid cfg => exact ⟨by rw [e1]; exact hj.1, hj.2⟩
      | rmForward pid cfg => exact ⟨by rw [e2]; exact hj.1, hj.2⟩
      | addGroup n c => exact absurd ⟨n, c, rfl⟩ h1
      | addForward n c => exact absurd ⟨n, c, rfl⟩ h2
      | modGroup n pid alias => exact absurd rfl (hm n pid alias)
    rcases foldl_minded hm ys hs with h | h
    · exact h
    · rw [ht] at h
      cases h
  refine ⟨fun q hq => ?_, fun q hq => ?_⟩
  · exact key (.rmGroup q.1 q.2) (fun _ _ _ h => by cases h) ⟨by rw [hal.1]; exact hq, fun _ h => by cases h⟩ (fun ⟨_, _, h⟩ => by cases h) (fun ⟨_, _, h⟩ => by cases h)
  · exact key (.rmForward q.1 q.2) (fun _ _ _ h => by cases h) ⟨by rw [hal.2]; exact hq, fun _ h => by cases h⟩ (fun ⟨_, _, h⟩ => by cases h) (fun ⟨_, _, h⟩ => by cases h)

/-- C139.  The manager leaves its message pump (`done`) exactly when it was told to stop and
none of its children is alive. -/
theorem manager_done_iff (env : Env) (dg : Nat) (model : Model) (np : Pid) (xs : List (Env × Input))
    (hn : NoReuse (State.run env dg model np xs).core.log) :
    (State.run env dg model np xs).core.done = true ↔
      Stopped (State.run env dg model np xs).core.log ∧ liveGroups (State.run env dg model np xs).core.log = [] ∧
        liveForwards (State.run env dg model np xs).core.log = [] := by
  have hal := run_alive env dg model np xs hn
  have hl := run_linv env dg model np xs
  rw [← hal.1, ← hal.2, ← hl.beyond]
  unfold Core.done Core.gs Core.fs
  simp [Bool.and_eq_true, List.isEmpty_iff, and_assoc]

/-! ### C138: ready -/

/-- How often the manager has told the domain manager that it is ready. -/
def readies (log : List Item) : Nat := log.countP fun x => x == .out .ready

theorem idle_log (s : State) (env : Env) :
    ((s.step (env, .idle)).core.log = s.core.log ++ [.inp .idle] ∧ (s.step (env, .idle)).core.runlevel = s.core.runlevel) ∨
    ((s.step (env, .idle)).core.log = s.core.log ++ [.inp .idle, .out .ready] ∧ s.core.runlevel = .configuring ∧ s.core.ready = true ∧
      (s.step (env, .idle)).core.runlevel = .running) := by
  rw [step_eq]
  show ((Core.idle _).log = _ ∧ (Core.idle _).runlevel = _) ∨ ((Core.idle _).log = _ ∧ _ ∧ _ ∧ (Core.idle _).runlevel = _)
  unfold Core.idle
  by_cases h : (decide ((s.core.logged .idle).runlevel = .configuring) && (s.core.logged .idle).ready) = true
  · right
    dsimp only
    rw [if_pos h]
    rw [Bool.and_eq_true, decide_eq_true_eq] at h
    refine ⟨?_, h.1, h.2, rfl⟩
    show s.core.log ++ [_] ++ [_] = _
    rw [List.append_assoc]; rfl
  · left
    dsimp only
    rw [if_neg h]
    exact ⟨rfl, rfl⟩

theorem readies_append (a b : List Item) : readies (a ++ b) = readies a + readies b := List.countP_append

theorem readies_zero {l : List Item} (h : Item.out .ready ∉ l) : readies l = 0 := by
  unfold readies
  rw [List.countP_eq_zero]
  intro x hx he
  exact h ((by simpa using he : x = _) ▸ hx)

theorem step_readies {s : State} (h : readies s.core.log ≤ 1 ∧ (s.core.runlevel = .configuring → readies s.core.log = 0)) (x : Env × Input) :
    readies (s.step x).core.log ≤ 1 ∧ ((s.step x).core.runlevel = .configuring → readies (s.step x).core.log = 0) := by
  obtain ⟨env, i⟩ := x
  by_cases hi : i = .idle
  · subst hi
    rcases idle_log s env with ⟨e, r⟩ | ⟨e, r, _, r'⟩
    · rw [e, r, readies_append]
      have : readies [.inp .idle] = 0 := rfl
      rw [this]
      exact h
    · rw [e, r', readies_append, h.2 r]
      exact ⟨Nat.le_refl _, fun h => by cases h⟩
  · obtain ⟨ys, e, hn, hr⟩ := step_mute s env i hi
    rw [e, readies_append, readies_zero hn]
    exact ⟨h.1, fun hc => h.2 (hr hc)⟩

/-- C140.  The manager says that it is ready at most once. -/
theorem ready_at_most_once (env : Env) (dg : Nat) (model : Model) (np : Pid) (xs : List (Env × Input)) :
    readies (State.run env dg model np xs).core.log ≤ 1 := by
  have h0 : readies (State.init env dg model np).core.log ≤ 1 ∧ ((State.init env dg model np).core.runlevel = .configuring → readies (State.init env dg model np).core.log = 0) := by
    obtain ⟨⟨os, hl, hn⟩, hr⟩ := Mute.framed (Framed.conform ({ core := { domainGroups := dg, nextPid := np } } : State) env {} model)
    have e : (State.init env dg model np).core.log = outsOf os := hl
    have hz : readies (State.init env dg model np).core.log = 0 := by
      rw [e]
      apply readies_zero
      intro hm
      obtain ⟨o, ho, e⟩ := mem_outsOf.mp hm
      injection e with e
      subst e
      exact hn ho
    exact ⟨by omega, fun _ => hz⟩
  have key : ∀ (xs : List (Env × Input)) (s : State), (readies s.core.log ≤ 1 ∧ (s.core.runlevel = .configuring → readies s.core.log = 0)) →
      readies (xs.foldl State.step s).core.log ≤ 1 := by
    intro xs
    induction xs with
    | nil => intro s h; exact h.1
    | cons x xs ih => intro s h; exact ih _ (step_readies h x)
  exact key xs _ h0

theorem split_before {α : Type} {a b l ys : List α} {x : α} (h : l ++ ys = a ++ x :: b) (hx : x ∉ ys) : ∃ b', l = a ++ x :: b' := by
  induction l generalizing a with
  | nil =>
    rw [List.nil_append] at h
    subst h
    exact absurd (List.mem_append.mpr (Or.inr List.mem_cons_self)) hx
  | cons y l ih =>
    cases a with
    | nil =>
      rw [List.cons_append, List.nil_append] at h
      injection h with h1 h2
      subst h1
      exact ⟨l, rfl⟩
    | cons z a =>
      rw [List.cons_append, List.cons_append] at h
      injection h with h1 h2
      subst h1
      obtain ⟨b', e⟩ := ih h2
      exact ⟨b', by rw [e]; rfl⟩

/-- What is known when the manager says that it is ready. -/
def ReadyRight (a : List Item) : Prop :=
  ¬ Ending a → (∀ q ∈ liveGroups a, ReportedG a q.1) ∧ ∀ q ∈ liveForwards a, ReportedF a q.1

/-- C138, the part that holds.  When the manager says that it is ready - and was not told to
change its configuration or to shut down before - every queue group and forward group that is
alive has answered its configuration.  Missing: that everything configured has been spawned;
refuted below. -/
theorem ready_when_children_configured_partial (env : Env) (dg : Nat) (model : Model) (np : Pid) (xs : List (Env × Input))
    (hn : NoReuse (State.run env dg model np xs).core.log) (a b : List Item)
    (he : (State.run env dg model np xs).core.log = a ++ .out .ready :: b) (hb : ¬ Ending a) :
    (∀ q ∈ liveGroups a, ∃ h qs, h.pid = q.1 ∧ Item.inp (.groupReply h qs) ∈ a) ∧
    (∀ q ∈ liveForwards a, ∃ h : Handle, h.pid = q.1 ∧ Item.inp (.forwardReply h) ∈ a) := by
  have key : ∀ (xs : List (Env × Input)) (s : State), RDInv s → Alive s.core →
      (∀ a b, s.core.log = a ++ .out .ready :: b → ReadyRight a) → NoReuse (xs.foldl State.step s).core.log →
      ∀ a b, (xs.foldl State.step s).core.log = a ++ .out .ready :: b → ReadyRight a := by
    intro xs
    induction xs with
    | nil => intro s _ _ h _; exact h
    | cons x xs ih =>
      intro s h1 h2 h3 hn
      obtain ⟨env', i⟩ := x
      have hn1 : NoReuse (s.step (env', i)).core.log := by
        obtain ⟨ys, e⟩ := foldl_log xs (s.step (env', i))
        rw [List.foldl_cons, e] at hn
        exact hn.prefix
      refine ih _ (step_rd h1 env' i) (step_alive h2 env' i hn1) ?_ hn
      intro a b hab
      by_cases hi : i = .idle
      · subst hi
        rcases idle_log s env' with ⟨e, r⟩ | ⟨e, r, hrd, r'⟩
        · rw [e] at hab
          obtain ⟨b', e'⟩ := split_before hab (by simp)
          exact h3 a b' e'
        · rw [e] at hab
          by_cases hl : b = []
          · subst hl
            have ha : a = s.core.log ++ [.inp .idle] := by
              have : s.core.log ++ [.inp .idle] ++ [.out .ready] = a ++ [Item.out .ready] := by rw [List.append_assoc]; exact hab
              exact (List.append_inj_left' this rfl).symm
            intro hne
            have hsub : ∀ x ∈ s.core.log, x ∈ a := fun x hx => by rw [ha]; exact List.mem_append.mpr (Or.inl hx)
            have hbz := h1.busy (fun h => hne (h.mono hsub))
            have hex : ∀ p, exited a p = exited s.core.log p := by
              intro p
              rw [ha, exited_append]
              simp [exited, exitOf]
            have hlg : liveGroups a = s.core.gs := by
              rw [h2.1]
              unfold liveGroups
              rw [ha, spawnedGroups_append, spawnedGroups_inp, List.append_nil, ← ha]
              exact List.filter_congr (fun q _ => by rw [hex])
            have hlf : liveForwards a = s.core.fs := by
              rw [h2.2]
              unfold liveForwards
              rw [ha, spawnedForwards_append, spawnedForwards_inp, List.append_nil, ← ha]
              exact List.filter_congr (fun q _ => by rw [hex])
            have hb0 : ¬ ((s.core.groups.any (·.state == .shutdown) || s.core.forwards.any (·.state == .shutdown)) = true) := by
              intro hb
              have hz : busy s.core = 0 := by omega
              unfold busy at hz
              rw [if_pos hb] at hz
              cases hz
            unfold Core.ready at hrd
            rw [Bool.and_eq_true, List.all_eq_true, List.all_eq_true] at hrd
            constructor
            · intro q hq
              rw [hlg] at hq
              obtain ⟨g, hg, rfl⟩ := List.mem_map.mp hq
              have hs := hrd.1 g hg
              cases hst : g.state with
              | running => exact (h1.groups g hg hst).mono hsub
              | shutdown =>
                exfalso
                apply hb0
                rw [Bool.or_eq_true_iff]
                exact Or.inl (List.any_eq_true.mpr ⟨g, hg, by simp [hst]⟩)
              | absent => rw [hst] at hs; cases hs
              | spawned => rw [hst] at hs; cases hs
              | connected => rw [hst] at hs; cases hs
            · intro q hq
              rw [hlf] at hq
              obtain ⟨g, hg, rfl⟩ := List.mem_map.mp hq
              have hs := hrd.2 g hg
              cases hst : g.state with
              | running => exact (h1.forwards g hg hst).mono hsub
              | shutdown =>
                exfalso
                apply hb0
                rw [Bool.or_eq_true_iff]
                exact Or.inr (List.any_eq_true.mpr ⟨g, hg, by simp [hst]⟩)
              | absent => rw [hst] at hs; cases hs
              | spawned => rw [hst] at hs; cases hs
              | connected => rw [hst] at hs; cases hs
          · -- the last item of the log is the ready
            have hlast : s.core.log ++ [.inp .idle] ++ [.out .ready] = a ++ .out .ready :: b := by rw [List.append_assoc]; exact hab
            obtain ⟨b1, y, rfl⟩ : ∃ b1 y, b = b1 ++ [y] := ⟨b.dropLast, b.getLast hl, (List.dropLast_concat_getLast hl).symm⟩
            have e2 : s.core.log ++ [.inp .idle] = a ++ .out .ready :: b1 := by
              have : s.core.log ++ [.inp .idle] ++ [.out .ready] = (a ++ .out .ready :: b1) ++ [y] := by rw [hlast]; simp
              exact List.append_inj_left' this rfl
            obtain ⟨b', e'⟩ := split_before e2 (by simp)
            exact h3 a b' e'
      · obtain ⟨ys, e, hny, _⟩ := step_mute s env' i hi
        rw [e] at hab
        obtain ⟨b', e'⟩ := split_before hab hny
        exact h3 a b' e'
  have h0 : ∀ a b, (State.init env dg model np).core.log = a ++ .out .ready :: b → ReadyRight a := by
    obtain ⟨⟨os, hl, hn⟩, _⟩ := Mute.framed (Framed.conform ({ core := { domainGroups := dg, nextPid := np } } : State) env {} model)
    have e : (State.init env dg model np).core.log = outsOf os := hl
    intro a b hab
    exfalso
    rw [e] at hab
    have : Item.out .ready ∈ outsOf os := by rw [hab]; exact List.mem_append.mpr (Or.inr List.mem_cons_self)
    obtain ⟨o, ho, e⟩ := mem_outsOf.mp this
    injection e with e
    subst e
    exact hn ho
  exact key xs _ (run_rd env dg model np []) (init_alive env dg model np) h0 hn a b he hb

/-- C138.  A queue group that connects is sent the configuration it was spawned with. -/
theorem connect_sends_spawned_configuration (env : Env) (dg : Nat) (model : Model) (np : Pid) (xs : List (Env × Input)) (env' : Env) (p : Handle)
    (hn : NoReuse (State.run env dg model np xs).core.log) (hr : env'.reach p.ipc = true)
    (cfg : GroupCfg) (hl : (p.pid, cfg) ∈ liveGroups (State.run env dg model np xs).core.log) :
    ∃ cfg', (p.pid, cfg') ∈ liveGroups (State.run env dg model np xs).core.log ∧
      (State.run env dg model np (xs ++ [(env', .groupConnect p)])).core.log.getLast? = some (.out (.groupUpdate p.ipc cfg')) := by
  have hal := run_alive env dg model np xs hn
  rw [run_append]
  generalize State.run env dg model np xs = s at *
  rw [← hal.1] at hl ⊢
  show ∃ cfg', _ ∧ (Core.groupConnect (State.taskMsg { s with core := s.core.logged (.groupConnect p) } env' (.groupConnect p.pid)).core env' p).log.getLast? = _
  -- the tasks only add groups, at the end
  have hg := Grows.taskMsg { s with core := s.core.logged (.groupConnect p) } env' (.groupConnect p.pid)
  generalize (State.taskMsg { s with core := s.core.logged (.groupConnect p) } env' (.groupConnect p.pid)).core = c1 at hg
  obtain ⟨os, _, hgs, _⟩ := hg
  have hgs : c1.gs = s.core.gs ++ spawnedGroups (outsOf os) := hgs
  have hf : ∃ q, s.core.gs.find? (·.1 == p.pid) = some q := by
    cases h : s.core.gs.find? (·.1 == p.pid) with
    | some q => exact ⟨q, rfl⟩
    | none =>
      rw [List.find?_eq_none] at h
      exact absurd (by simp) (h _ hl)
  obtain ⟨q, hq⟩ := hf
  have hq1 : c1.gs.find? (·.1 == p.pid) = some q := by rw [hgs, List.find?_append, hq]; rfl
  have hqp : q.1 = p.pid := by simpa using List.find?_some hq
  refine ⟨q.2, by rw [← hqp]; exact List.mem_of_find?_eq_some hq, ?_⟩
  unfold Core.groupConnect
  unfold Core.gs at hq1
  rw [List.find?_map] at hq1
  obtain ⟨g, hg, e⟩ := Option.map_eq_some_iff.mp hq1
  have hg' : c1.groups.find? (·.process.pid == p.pid) = some g := hg
  rw [hg']
  dsimp only
  unfold Core.send
  rw [if_pos hr]
  rw [← e]
  simp

/-! ### Concrete runs -/

/-- A check for `NoReuse`. -/
def noReuseB : List Item → Bool
  | [] => true
  | x :: post => (match exitOf x with
      | some pid => !((spawnedGroups post).any (·.1 == pid)) && !((spawnedForwards post).any (·.1 == pid))
      | none => true) && noReuseB post

theorem noReuse_of_b : ∀ {log : List Item}, noReuseB log = true → NoReuse log
  | [], _ => by
    intro pre x post pid h
    cases pre <;> cases h
  | y :: ys, h => by
    unfold noReuseB at h
    rw [Bool.and_eq_true] at h
    intro pre x post pid he hx
    cases pre with
    | cons z pre =>
      rw [List.cons_append] at he
      injection he with _ he
      exact noReuse_of_b h.2 pre x post pid he hx
    | nil =>
      rw [List.nil_append] at he
      injection he with h1 h2
      subst h1 h2
      have h1 := h.1
      rw [hx] at h1
      dsimp only at h1
      rw [Bool.and_eq_true, Bool.not_eq_true', Bool.not_eq_true', List.any_eq_false, List.any_eq_false] at h1
      constructor
      · intro hm
        obtain ⟨q, hq, e⟩ := List.mem_map.mp hm
        exact h1.1 q hq (by simp [e])
      · intro hm
        obtain ⟨q, hq, e⟩ := List.mem_map.mp hm
        exact h1.2 q hq (by simp [e])

namespace Demo

/-- Everybody can be reached. -/
def all : Env := ⟨fun _ => true⟩

def model : Model := { groups := [{ alias := "a" }, { alias := "b" }], forwards := [{ alias := "f" }] }

/-- The groups, pids 1 and 2, connect and answer, then the forward group, pid 3. -/
def boot : List (Env × Input) :=
  [(all, .groupConnect ⟨1, 11⟩), (all, .groupReply ⟨1, 11⟩ [("qa", 1)]), (all, .groupConnect ⟨2, 12⟩), (all, .groupReply ⟨2, 12⟩ []),
   (all, .forwardConnect ⟨3, 13⟩), (all, .forwardReply ⟨3, 13⟩), (all, .idle)]

/-- `b` and the forward group are to go, `c` is to be added. -/
def wanted : Model := { groups := [{ alias := "a", rest := 1 }, { alias := "c" }], forwards := [] }

def update : Env × Input := (all, .configUpdate 7 ⟨99, 199⟩ 0 wanted)

def after : List (Env × Input) :=
  [(all, .exitEvent 3), (all, .exitEvent 2), (all, .groupConnect ⟨4, 14⟩), (all, .groupReply ⟨4, 14⟩ []), (all, .groupReply ⟨1, 11⟩ [("qa", 1)])]

def run (xs : List (Env × Input)) : State := State.run all 0 model 1 xs

end Demo

/-- The hypotheses of `config_reply_lists_live` hold in the demo, which answers with all three children. -/
example : NoReuse (Demo.run Demo.boot).core.log ∧
    (Demo.run (Demo.boot ++ [(Demo.all, .configRequest 5 ⟨99, 199⟩)])).core.log.getLast? = some (.out (.configReply 199 5 Demo.model)) := by
  exact ⟨noReuse_of_b (by decide +kernel), by decide +kernel⟩

/-- The hypotheses of the theorems about an update hold in the demo: it is answered, once, at the end and not before; `b` and
the forward group were alive and are not wanted, `c` is new, `a` is modified. -/
example : NoReuse (Demo.run (Demo.boot ++ Demo.update :: Demo.after)).core.log ∧
    updates 199 7 (Demo.run (Demo.boot ++ Demo.update :: Demo.after)).core.log = 1 ∧
    Item.out (.updateReply 199 7) ∈ (Demo.run (Demo.boot ++ Demo.update :: Demo.after)).core.log ∧
    Item.out (.updateReply 199 7) ∉ (Demo.run (Demo.boot ++ Demo.update :: Demo.after.take 4)).core.log ∧
    (2, { alias := "b" }) ∈ liveGroups (Demo.run Demo.boot).core.log ∧ (3, { alias := "f" }) ∈ liveForwards (Demo.run Demo.boot).core.log ∧
    (∀ q ∈ liveGroups (Demo.run Demo.boot).core.log, q.2.alias ≠ "c") ∧
    (liveGroups (Demo.run Demo.boot).core.log).find? (·.2.alias == "a") = some (1, { alias := "a" }) ∧
    (∀ r ∈ liveGroups (Demo.run Demo.boot).core.log, r.2 ≠ { alias := "a", rest := 1 }) := by
  exact ⟨noReuse_of_b (by decide +kernel), by decide +kernel, by decide +kernel, by decide +kernel, by decide +kernel, by decide +kernel,
    by decide +kernel, by decide +kernel, by decide +kernel⟩

/-- C141, what a user expects of the configuration after a change: when the last thing the
manager did is to answer with its configuration, nothing has exited that is wanted, and the
only update has been answered, the queue groups are configured as the update wanted. -/
def ConfigAfterUpdate : Prop :=
  ∀ (env : Env) (dg : Nat) (model : Model) (np : Pid) (xs ys : List (Env × Input)) (env' : Env) (corr : Corr) (p : Handle) (dg' : Nat)
    (wanted : Model) (dst : Ipc) (k : Corr) (m : Model) (log : List Item),
    log = (State.run env dg model np (xs ++ (env', .configUpdate corr p dg' wanted) :: ys)).core.log →
    NoReuse log → (∀ x ∈ xs ++ ys, ∀ k p d w, x.2 ≠ .configUpdate k p d w) → Item.inp .shutdown ∉ log →
    (∀ pid, exited log pid = false) → Item.out (.updateReply p.ipc corr) ∈ log →
    log.getLast? = some (.out (.configReply dst k m)) → ∀ x ∈ wanted.groups, x ∈ m.groups

theorem not_exited_of_b {log : List Item} (h : (log.all fun x => exitOf x == none) = true) (pid : Pid) : exited log pid = false := by
  unfold exited
  rw [List.any_eq_false]
  intro x hx he
  have := List.all_eq_true.mp h x hx
  have e1 : exitOf x = none := by simpa using this
  rw [e1] at he
  cases he

/-- C141, refuted: the configuration of a modified group is sent to the group, but the manager
keeps - and answers with - the old one. -/
theorem config_after_update_refuted : ¬ ConfigAfterUpdate := by
  intro h
  have := h Demo.all 0 { groups := [{ alias := "a" }] } 1
    [(Demo.all, .groupConnect ⟨1, 11⟩), (Demo.all, .groupReply ⟨1, 11⟩ [])]
    [(Demo.all, .groupReply ⟨1, 11⟩ []), (Demo.all, .configRequest 5 ⟨99, 199⟩)]
    Demo.all 7 ⟨99, 199⟩ 0 { groups := [{ alias := "a", rest := 1 }] } 199 5 { groups := [{ alias := "a" }] }
    _ rfl (noReuse_of_b (by decide +kernel))
    (by intro x hx k p d w e
        simp only [List.cons_append, List.nil_append, List.mem_cons, List.not_mem_nil, or_false] at hx
        rcases hx with rfl | rfl | rfl | rfl <;> cases e)
    (by decide +kernel) (not_exited_of_b (by decide +kernel)) (by decide +kernel) (by decide +kernel)
    { alias := "a", rest := 1 } List.mem_cons_self
  revert this
  decide +kernel

/-- C136, what a user expects: when an update - the only one with its correlation - is answered,
and nothing has exited, every queue group that it modifies has answered a configuration after it
was sent the new one. -/
def ModifiedAnswered : Prop :=
  ∀ (env : Env) (dg : Nat) (model : Model) (np : Pid) (xs ys : List (Env × Input)) (env' : Env) (corr : Corr) (p : Handle) (dg' : Nat)
    (wanted : Model) (before after : List Item),
    before = (State.run env dg model np xs).core.log →
    before ++ after = (State.run env dg model np (xs ++ (env', .configUpdate corr p dg' wanted) :: ys)).core.log →
    NoReuse (before ++ after) → updates p.ipc corr (before ++ after) ≤ 1 → Item.out (.updateReply p.ipc corr) ∈ before ++ after →
    (∀ pid, exited (before ++ after) pid = false) →
    ∀ q, (liveGroups before).find? (·.2.alias == q.2.alias) = some q →
    ∀ x ∈ wanted.groups, x.alias = q.2.alias → (∀ r ∈ liveGroups before, r.2 ≠ x) →
    ∃ a dst b h qs, after = a ++ .out (.groupUpdate dst x) :: b ∧ h.pid = q.1 ∧ Item.inp (.groupReply h qs) ∈ b

/-- What is behind the first update of a group to this configuration. -/
def behindUpdate (x : GroupCfg) : List Item → List Item
  | [] => []
  | .out (.groupUpdate _ y) :: rest => if y = x then rest else behindUpdate x rest
  | _ :: rest => behindUpdate x rest

theorem behindUpdate_mem {x : GroupCfg} {y : Item} {dst : Ipc} : ∀ {a b : List Item}, y ∈ b → y ∈ behindUpdate x (a ++ .out (.groupUpdate dst x) :: b)
  | [], b, h => by
    show y ∈ if x = x then b else _
    rw [if_pos rfl]
    exact h
  | z :: a, b, h => by
    rw [List.cons_append]
    unfold behindUpdate
    split
    · rename_i heq; cases heq
    · rename_i d y' rest heq
      injection heq with e1 e2
      split
      · rw [← e2]
        exact List.mem_append.mpr (Or.inr (List.mem_cons_of_mem _ h))
      · rw [← e2]; exact behindUpdate_mem h
    · rename_i w rest _ heq
      injection heq with e1 e2
      rw [← e2]; exact behindUpdate_mem h

/-- C136, refuted: with two updates under way the second one is answered when the group has
answered the configuration of the first: the message that completes the first task also
completes the next, that has just sent the second configuration. -/
theorem modified_group_answered_refuted : ¬ ModifiedAnswered := by
  intro h
  obtain ⟨a, dst, b, x, qs, e, hx, hm⟩ := h Demo.all 0 { groups := [{ alias := "a" }] } 1
    [(Demo.all, .groupConnect ⟨1, 11⟩), (Demo.all, .groupReply ⟨1, 11⟩ []), (Demo.all, .configUpdate 6 ⟨99, 199⟩ 0 { groups := [{ alias := "a", rest := 1 }] })]
    [(Demo.all, .groupReply ⟨1, 11⟩ [])]
    Demo.all 7 ⟨99, 199⟩ 0 { groups := [{ alias := "a", rest := 2 }] } _ 
    [.inp (.configUpdate 7 ⟨99, 199⟩ 0 { groups := [{ alias := "a", rest := 2 }] }), .inp (.groupReply ⟨1, 11⟩ []), .out (.updateReply 199 6),
     .out (.groupUpdate 11 { alias := "a", rest := 2 }), .out (.updateReply 199 7)]
    rfl (by decide +kernel) (noReuse_of_b (by decide +kernel)) (by decide +kernel) (by decide +kernel) (not_exited_of_b (by decide +kernel))
    (1, { alias := "a" }) (by decide +kernel) { alias := "a", rest := 2 } List.mem_cons_self rfl (by decide +kernel)
  have := behindUpdate_mem (x := { alias := "a", rest := 2 }) (dst := dst) (a := a) hm
  rw [← e] at this
  simp [behindUpdate] at this

/-- C136, what a user expects of a forward group: when the update is answered, and nothing has
exited, it has been sent its new configuration. -/
def ModifiedForwardSent : Prop :=
  ∀ (env : Env) (dg : Nat) (model : Model) (np : Pid) (xs ys : List (Env × Input)) (env' : Env) (corr : Corr) (p : Handle) (dg' : Nat)
    (wanted : Model) (before after : List Item),
    before = (State.run env dg model np xs).core.log →
    before ++ after = (State.run env dg model np (xs ++ (env', .configUpdate corr p dg' wanted) :: ys)).core.log →
    NoReuse (before ++ after) → updates p.ipc corr (before ++ after) ≤ 1 → Item.out (.updateReply p.ipc corr) ∈ before ++ after →
    (∀ pid, exited (before ++ after) pid = false) → (∀ e ∈ env :: env' :: (xs ++ ys).map (·.1), ∀ d, e.reach d = true) →
    ∀ q ∈ liveForwards before, ∀ x ∈ wanted.forwards, x.alias = q.2.alias → (∀ r ∈ liveForwards before, r.2 ≠ x) →
    ∃ dst d, Item.out (.forwardUpdate dst x d) ∈ after

/-- C136, refuted: the manager searches its queue groups for the alias of the forward group; it
finds none, sends nothing and answers the update. -/
theorem modified_forward_sent_refuted : ¬ ModifiedForwardSent := by
  intro h
  obtain ⟨dst, d, hm⟩ := h Demo.all 0 { forwards := [{ alias := "f" }] } 1
    [(Demo.all, .forwardConnect ⟨1, 11⟩), (Demo.all, .forwardReply ⟨1, 11⟩)] []
    Demo.all 7 ⟨99, 199⟩ 0 { forwards := [{ alias := "f", rest := 1 }] } _
    [.inp (.configUpdate 7 ⟨99, 199⟩ 0 { forwards := [{ alias := "f", rest := 1 }] }), .out (.updateReply 199 7)]
    rfl (by decide +kernel) (noReuse_of_b (by decide +kernel)) (by decide +kernel) (by decide +kernel) (not_exited_of_b (by decide +kernel))
    (by intro e he d
        simp only [List.append_nil, List.map_cons, List.map_nil, List.mem_cons, List.not_mem_nil, or_false] at he
        rcases he with rfl | rfl | rfl | rfl <;> rfl)
    (1, { alias := "f" }) (by decide +kernel) { alias := "f", rest := 1 } List.mem_cons_self rfl (by decide +kernel)
  simp at hm

/-- C137, what a user expects: when the manager has been told to shut down, and has nothing left to do - none
of its tasks waits for anything - no child is left. -/
def ShutdownStopsAll : Prop :=
  ∀ (env : Env) (dg : Nat) (model : Model) (np : Pid) (xs : List (Env × Input)) (log : List Item),
    log = (State.run env dg model np xs).core.log → NoReuse log → (∀ e ∈ env :: xs.map (·.1), ∀ d, e.reach d = true) →
    (State.run env dg model np xs).tasks = [] → Item.inp .shutdown ∈ log →
    liveGroups log = [] ∧ liveForwards log = []

/-- C137, refuted: the manager is told to shut down while the queue groups start; the forward group, whose
task waits, is spawned after that, and nobody tells it to stop: the manager never ends. -/
theorem shutdown_stops_all_refuted : ¬ ShutdownStopsAll := by
  intro h
  have := (h Demo.all 0 { groups := [{ alias := "a" }], forwards := [{ alias := "f" }] } 1
    [(Demo.all, .shutdown), (Demo.all, .groupConnect ⟨1, 11⟩), (Demo.all, .groupReply ⟨1, 11⟩ []),
     (Demo.all, .forwardConnect ⟨2, 12⟩), (Demo.all, .forwardReply ⟨2, 12⟩), (Demo.all, .childExit 1), (Demo.all, .exitEvent 1)]
    _ rfl (noReuse_of_b (by decide +kernel))
    (by intro e he d
        simp only [List.map_cons, List.map_nil, List.mem_cons, List.not_mem_nil, or_false] at he
        rcases he with rfl | rfl | rfl | rfl | rfl | rfl | rfl | rfl <;> rfl)
    (by decide +kernel) (by decide +kernel)).2
  revert this
  decide +kernel

/-- The hypotheses of `shutdown_stops_children_partial` hold in the demo: all three children were alive, and no
task is left when they have exited, the forward group first; the manager is then done. -/
example : NoReuse (Demo.run Demo.boot).core.log ∧
    (liveGroups (Demo.run Demo.boot).core.log).length = 2 ∧ (liveForwards (Demo.run Demo.boot).core.log).length = 1 ∧
    (Demo.run (Demo.boot ++ (Demo.all, .shutdown) :: [(Demo.all, .exitEvent 3), (Demo.all, .exitEvent 1), (Demo.all, .exitEvent 2)])).tasks = [] ∧
    (Demo.run (Demo.boot ++ (Demo.all, .shutdown) :: [(Demo.all, .exitEvent 3), (Demo.all, .exitEvent 1)])).tasks ≠ [] ∧
    (Demo.run (Demo.boot ++ (Demo.all, .shutdown) :: [(Demo.all, .exitEvent 3), (Demo.all, .exitEvent 1), (Demo.all, .exitEvent 2)])).core.done = true := by
  exact ⟨noReuse_of_b (by decide +kernel), by decide +kernel, by decide +kernel, by decide +kernel, by decide +kernel, by decide +kernel⟩

/-- C138, what a user expects: when the manager says that it is ready, everything that is configured has been spawned. -/
def ReadyAllSpawned : Prop :=
  ∀ (env : Env) (dg : Nat) (model : Model) (np : Pid) (xs : List (Env × Input)) (a b : List Item),
    (State.run env dg model np xs).core.log = a ++ .out .ready :: b → NoReuse (a ++ .out .ready :: b) → ¬ Ending a →
    (∀ cfg ∈ model.groups, ∃ pid, Item.out (.spawnGroup pid cfg) ∈ a) ∧ (∀ cfg ∈ model.forwards, ∃ pid, Item.out (.spawnForward pid cfg) ∈ a)

/-- C138, refuted: a queue group exits before it connects; the manager has no child left that it waits for, and says
that it is ready although the forward group has not been started. -/
theorem ready_all_spawned_refuted : ¬ ReadyAllSpawned := by
  intro h
  obtain ⟨pid, hp⟩ := (h Demo.all 0 { groups := [{ alias := "a" }], forwards := [{ alias := "f" }] } 1
    [(Demo.all, .childExit 1), (Demo.all, .idle)]
    [.out (.spawnGroup 1 { alias := "a" }), .inp (.childExit 1), .out (.exitEvent 1), .inp .idle] []
    (by decide +kernel) (noReuse_of_b (by decide +kernel))
    (by intro he
        rcases he with he | ⟨_, _, _, _, he⟩ <;> simp at he)).2 { alias := "f" } List.mem_cons_self
  simp at hp

/-- The manager is ready in the demo, with three children. -/
example : readies (Demo.run Demo.boot).core.log = 1 ∧ (Demo.run Demo.boot).core.log.getLast? = some (.out .ready) ∧
    (liveGroups (Demo.run Demo.boot).core.log).length = 2 ∧ readies (Demo.run (Demo.boot.take 5 ++ [(Demo.all, .idle)])).core.log = 0 := by
  exact ⟨by decide +kernel, by decide +kernel, by decide +kernel, by decide +kernel⟩

example : (1, { alias := "a" }) ∈ liveGroups (Demo.run []).core.log ∧
    (Demo.run [(Demo.all, .groupConnect ⟨1, 11⟩)]).core.log.getLast? = some (.out (.groupUpdate 11 { alias := "a" })) := by
  exact ⟨by decide +kernel, by decide +kernel⟩

end Casual.QManager
