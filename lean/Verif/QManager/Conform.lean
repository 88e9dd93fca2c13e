import Verif.QManager.Jobs
import Verif.QManager.Account
import Verif.Task.Weigh
import Verif.Config.ChangeProps

/-! A configuration update is answered once, after what it has to see to is done. -/
namespace Casual.QManager

open Casual.Task Casual.Config

/-! ### Counting the answers -/

/-- The answers to configuration updates of this process, with this correlation. -/
def updateReplies (dst : Ipc) (corr : Corr) (log : List Item) : Nat :=
  log.countP fun x => match x with
    | .out (.updateReply d k) => d == dst && k == corr
    | _ => false

/-- The configuration updates of this process, with this correlation. -/
def updates (dst : Ipc) (corr : Corr) (log : List Item) : Nat :=
  log.countP fun x => match x with
    | .inp (.configUpdate k p _ _) => p.ipc == dst && k == corr
    | _ => false

/-- A unit that is to answer. -/
def replyUnit (dst : Ipc) (corr : Corr) (u : QUnit) : Nat :=
  match u.action with
  | some (.reply p k) => if p.ipc == dst && k == corr then 1 else 0
  | _ => 0

theorem updateReplies_append (dst : Ipc) (corr : Corr) (a b : List Item) :
    updateReplies dst corr (a ++ b) = updateReplies dst corr a + updateReplies dst corr b := List.countP_append

theorem updates_append (dst : Ipc) (corr : Corr) (a b : List Item) :
    updates dst corr (a ++ b) = updates dst corr a + updates dst corr b := List.countP_append

theorem updates_outs (dst : Ipc) (corr : Corr) (os : List Out) : updates dst corr (outsOf os) = 0 := by
  unfold updates
  rw [List.countP_eq_zero]
  intro x hx
  obtain ⟨o, _, rfl⟩ := mem_outsOf.mp hx
  simp

theorem updateReplies_plain (dst : Ipc) (corr : Corr) {os : List Out} (h : ∀ o ∈ os, Plain o) :
    updateReplies dst corr (outsOf os) = 0 := by
  unfold updateReplies
  rw [List.countP_eq_zero]
  intro x hx
  obtain ⟨o, ho, rfl⟩ := mem_outsOf.mp hx
  have := h o ho
  cases o <;> first | (cases this; done) | simp

/-- The same answers to updates. -/
def SameReplies (dst : Ipc) (corr : Corr) (c c' : Core) : Prop :=
  updateReplies dst corr c'.log = updateReplies dst corr c.log ∧ updates dst corr c'.log = updates dst corr c.log

theorem SameReplies.refl (dst : Ipc) (corr : Corr) (c : Core) : SameReplies dst corr c c := ⟨rfl, rfl⟩

theorem SameReplies.trans {dst : Ipc} {corr : Corr} {a b c : Core} (h1 : SameReplies dst corr a b) (h2 : SameReplies dst corr b c) :
    SameReplies dst corr a c := ⟨h2.1.trans h1.1, h2.2.trans h1.2⟩

theorem SameReplies.quiet {dst : Ipc} {corr : Corr} {c c' : Core} (h : Quiet c c') : SameReplies dst corr c c' := by
  obtain ⟨os, hl, hp⟩ := h.log
  unfold SameReplies
  rw [hl, updateReplies_append, updates_append, updateReplies_plain dst corr hp, updates_outs]
  exact ⟨rfl, rfl⟩

theorem SameReplies.emit {dst : Ipc} {corr : Corr} (c : Core) (o : Out) (h : ∀ d k, o ≠ .updateReply d k) : SameReplies dst corr c (c.emit o) := by
  unfold SameReplies Core.emit
  dsimp only
  rw [updateReplies_append, updates_append]
  have e1 : updateReplies dst corr [.out o] = 0 := by
    cases o <;> first | rfl | exact absurd rfl (h _ _)
  have e2 : updates dst corr [.out o] = 0 := rfl
  rw [e1, e2]
  exact ⟨rfl, rfl⟩

theorem SameReplies.send {dst : Ipc} {corr : Corr} (c : Core) (env : Env) (d : Ipc) (o : Out) (h : ∀ d k, o ≠ .updateReply d k) :
    SameReplies dst corr c (c.send env d o) := by
  unfold Core.send
  split
  · exact SameReplies.emit c o h
  · exact SameReplies.refl dst corr c

theorem SameReplies.foldl {dst : Ipc} {corr : Corr} {α : Type} (f : Core → α → Core) (h : ∀ c x, SameReplies dst corr c (f c x)) :
    ∀ (l : List α) (c : Core), SameReplies dst corr c (l.foldl f c)
  | [], c => SameReplies.refl dst corr c
  | x :: xs, c => (h c x).trans (SameReplies.foldl f h xs (f c x))

theorem SameReplies.sendShutdown {dst : Ipc} {corr : Corr} (c : Core) (env : Env) (p : Handle) : SameReplies dst corr c (c.sendShutdown env p) := by
  unfold Core.sendShutdown
  split
  · exact SameReplies.send c env _ _ (fun _ _ h => by cases h)
  · exact SameReplies.emit c _ (fun _ _ h => by cases h)

theorem foldl_fst_same {dst : Ipc} {corr : Corr} {α : Type} (f : Core × List Pid → α → Core × List Pid)
    (h : ∀ r x, SameReplies dst corr r.1 (f r x).1) :
    ∀ (l : List α) (r : Core × List Pid), SameReplies dst corr r.1 (l.foldl f r).1
  | [], r => SameReplies.refl dst corr r.1
  | x :: xs, r => (h r x).trans (foldl_fst_same f h xs (f r x))

/-- Every action but the answer. -/
theorem SameReplies.act {dst : Ipc} {corr : Corr} (env : Env) (a : TAct) (b : TBody) (c : Core) (h : ∀ p k, a ≠ .reply p k) :
    SameReplies dst corr c (taskAct env a b c).1 := by
  cases a with
  | addGroups cfgs =>
    show SameReplies dst corr c (c.spawnGroups cfgs)
    unfold Core.spawnGroups
    refine SameReplies.foldl _ ?_ cfgs c
    intro c cfg
    exact SameReplies.emit c (.spawnGroup c.nextPid cfg) (fun _ _ h => by cases h)
  | addForwards cfgs =>
    show SameReplies dst corr c (c.spawnForwards cfgs)
    unfold Core.spawnForwards
    refine SameReplies.foldl _ ?_ cfgs c
    intro c cfg
    exact SameReplies.emit c (.spawnForward c.nextPid cfg) (fun _ _ h => by cases h)
  | rmGroups cfgs =>
    show SameReplies dst corr c (c.shutdownGroups env cfgs).1
    unfold Core.shutdownGroups
    dsimp only
    exact SameReplies.foldl _ (fun c (g : Entity GroupCfg) => SameReplies.sendShutdown c env g.process) _ c
  | rmForwards cfgs =>
    show SameReplies dst corr c (c.shutdownForwards env cfgs).1
    unfold Core.shutdownForwards
    dsimp only
    exact SameReplies.foldl _ (fun c (g : Entity FwdCfg) => SameReplies.sendShutdown c env g.process) _ c
  | modGroups cfgs =>
    show SameReplies dst corr c (c.modifyGroups env cfgs).1
    unfold Core.modifyGroups
    refine foldl_fst_same _ ?_ cfgs (c, [])
    intro r x
    split
    · exact SameReplies.send _ env _ _ (fun _ _ h => by cases h)
    · exact SameReplies.refl _ _ _
  | modForwards cfgs =>
    show SameReplies dst corr c (c.modifyForwards env cfgs).1
    unfold Core.modifyForwards
    refine foldl_fst_same _ ?_ cfgs (c, [])
    intro r x
    split
    · exact SameReplies.send _ env _ _ (fun _ _ h => by cases h)
    · exact SameReplies.refl _ _ _
  | reply p k => exact absurd rfl (h p k)

theorem replyWeighs (env : Env) (dst : Ipc) (corr : Corr) :
    Weighs (taskOps env) (fun c => updateReplies dst corr c.log) (replyUnit dst corr) where
  start := by
    intro u c
    unfold unitStart
    split
    · rename_i a ha
      dsimp only
      have e : replyUnit dst corr { u with action := none, body := ((taskOps env).act a u.body c).2.1 } = 0 := rfl
      rw [e]
      by_cases h : ∃ p k, a = .reply p k
      · obtain ⟨p, k, rfl⟩ := h
        show updateReplies dst corr (c.send env p.ipc (.updateReply p.ipc k)).log + 0 ≤ _
        unfold replyUnit
        rw [ha]
        unfold Core.send
        split
        · dsimp only
          rw [updateReplies_append]
          have e : updateReplies dst corr [.out (.updateReply p.ipc k)] = if p.ipc == dst && k == corr then 1 else 0 := by
            simp [updateReplies, List.countP_cons]
          rw [e]
          omega
        · omega
      · have := (SameReplies.act (dst := dst) (corr := corr) env a u.body c (fun p k e => h ⟨p, k, e⟩)).1
        show updateReplies dst corr (taskAct env a u.body c).1.log + 0 ≤ _
        rw [this]
        omega
    · exact Nat.le_refl _
  msg := by
    intro m u c
    unfold unitMsg
    split
    · rename_i h hh
      dsimp only
      have := taskHandle_fst (b := u.body) (m := m) hh c
      rw [this]
      exact Nat.le_refl _
    · exact Nat.le_refl _

/-- The answers, those to come, and the updates. -/
def Answers (dst : Ipc) (corr : Corr) (s : State) : Prop :=
  updateReplies dst corr s.core.log + sumW (replyUnit dst corr) s.tasks.flatten ≤ updates dst corr s.core.log

theorem updates_grow {c c' : Core} (h : Grows c c') (dst : Ipc) (corr : Corr) : updates dst corr c'.log = updates dst corr c.log := by
  obtain ⟨os, hl, _⟩ := h
  rw [hl, updates_append, updates_outs, Nat.add_zero]

theorem Answers.taskMsg {dst : Ipc} {corr : Corr} {s : State} (h : Answers dst corr s) (env : Env) (m : TMsg) : Answers dst corr (s.taskMsg env m) := by
  unfold Answers at *
  rw [updates_grow (Grows.taskMsg s env m)]
  exact Nat.le_trans ((replyWeighs env dst corr).coordMsg m s.tasks s.core) h

theorem taskThen_weight (dst : Ipc) (corr : Corr) (s : State) (env : Env) (a : TAct) (k : TKind) :
    updateReplies dst corr (s.taskThen env a k).core.log + sumW (replyUnit dst corr) (s.taskThen env a k).tasks.flatten ≤
    updateReplies dst corr s.core.log + sumW (replyUnit dst corr) s.tasks.flatten +
      match a with | .reply p c => if p.ipc == dst && c == corr then 1 else 0 | _ => 0 := by
  refine Nat.le_trans ((replyWeighs env dst corr).coordThen _ s.tasks s.core) (Nat.add_le_add_left ?_ _)
  apply Nat.le_of_eq
  cases a <;> simp [sumW, mkGroup, replyUnit]

theorem Answers.taskThen {dst : Ipc} {corr : Corr} {s : State} (h : Answers dst corr s) (env : Env) (a : TAct) (k : TKind) (ha : ∀ p c, a ≠ .reply p c) :
    Answers dst corr (s.taskThen env a k) := by
  have hw := taskThen_weight dst corr s env a k
  unfold Answers at *
  rw [updates_grow (Grows.taskThen s env a k)]
  have : (match a with | .reply p c => if p.ipc == dst && c == corr then 1 else 0 | _ => 0) = 0 := by
    cases a with
    | reply p c => exact absurd rfl (ha p c)
    | _ => rfl
  rw [this] at hw
  omega

theorem Answers.thenIf {dst : Ipc} {corr : Corr} {s : State} (h : Answers dst corr s) {α : Type} (env : Env) (l : List α) (a : List α → TAct) (k : TKind)
    (ha : ∀ p c, a l ≠ .reply p c) : Answers dst corr (s.thenIf env l a k) := by
  unfold State.thenIf
  split
  · exact h
  · exact h.taskThen env _ k ha

theorem Answers.conform {dst : Ipc} {corr : Corr} {s : State} (h : Answers dst corr s) (env : Env) (current wanted : Model) :
    Answers dst corr (s.conform env current wanted) := by
  unfold State.conform
  dsimp only
  refine Answers.thenIf (Answers.thenIf (Answers.thenIf (Answers.thenIf (Answers.thenIf (Answers.thenIf h env _ _ _ ?_) env _ _ _ ?_) env _ _ _ ?_) env _ _ _ ?_) env _ _ _ ?_) env _ _ _ ?_
  all_goals (intro p c h; cases h)

/-- Only the core changes, the answers do not. -/
theorem Answers.core {dst : Ipc} {corr : Corr} {s : State} (h : Answers dst corr s) {c : Core} (hs : SameReplies dst corr s.core c) :
    Answers dst corr { s with core := c } := by
  unfold Answers at *
  rw [hs.1, hs.2]
  exact h

theorem SameReplies.log {dst : Ipc} {corr : Corr} {c c' : Core} (h : c'.log = c.log) : SameReplies dst corr c c' := by
  unfold SameReplies
  rw [h]
  exact ⟨rfl, rfl⟩

theorem SameReplies.logged {dst : Ipc} {corr : Corr} (c : Core) (i : Input) (h : updates dst corr [.inp i] = 0) : SameReplies dst corr c (c.logged i) := by
  unfold SameReplies Core.logged
  dsimp only
  rw [updateReplies_append, updates_append, h]
  exact ⟨rfl, rfl⟩

theorem step_answers {dst : Ipc} {corr : Corr} {s : State} (h : Answers dst corr s) (env : Env) (i : Input) : Answers dst corr (s.step (env, i)) := by
  rw [step_eq]
  have hl : updates dst corr [.inp i] = 0 → Answers dst corr { s with core := s.core.logged i } :=
    fun e => h.core (SameReplies.logged s.core i e)
  cases i with
  | lookup l => exact (hl rfl).core (SameReplies.quiet (Quiet.lookupRequest _ env l))
  | discard k p => exact (hl rfl).core (SameReplies.quiet (Quiet.discardRequest _ env k p))
  | discoveryLookup k p scope names => exact (hl rfl).core (SameReplies.send _ env _ _ (fun _ _ h => by cases h))
  | discoveryReply k => exact (hl rfl).core (SameReplies.quiet (Quiet.discoveryReply _ env k))
  | fetchKnown k p => exact (hl rfl).core (SameReplies.send _ env _ _ (fun _ _ h => by cases h))
  | configRequest k p => exact (hl rfl).core (SameReplies.send _ env _ _ (fun _ _ h => by cases h))
  | idle => exact (hl rfl).core (SameReplies.quiet (Quiet.idle _))
  | abort => exact (hl rfl).core (SameReplies.quiet (Quiet.abort _ env))
  | configUpdate k p dg wanted =>
    let s1 : State := { s with core := { s.core.logged (.configUpdate k p dg wanted) with domainGroups := dg } }
    have hu : updates dst corr s1.core.log = updates dst corr s.core.log + if p.ipc == dst && k == corr then 1 else 0 := by
      show updates dst corr (s.core.log ++ [_]) = _
      rw [updates_append]
      simp [updates, List.countP_cons]
    have hr : updateReplies dst corr s1.core.log = updateReplies dst corr s.core.log := by
      show updateReplies dst corr (s.core.log ++ [_]) = _
      rw [updateReplies_append]
      rfl
    have hA : ∀ n, updateReplies dst corr s1.core.log + sumW (replyUnit dst corr) s1.tasks.flatten + n ≤ updates dst corr s.core.log + n := by
      intro n
      rw [hr]
      exact Nat.add_le_add_right h n
    -- the weights of the tasks of the update
    have key : ∀ (s2 : State), updateReplies dst corr s2.core.log + sumW (replyUnit dst corr) s2.tasks.flatten ≤ updates dst corr s.core.log →
        ∀ {α : Type} (l : List α) (a : List α → TAct) (kk : TKind), (∀ p c, a l ≠ .reply p c) →
        updateReplies dst corr (s2.thenIf env l a kk).core.log + sumW (replyUnit dst corr) (s2.thenIf env l a kk).tasks.flatten ≤ updates dst corr s.core.log := by
      intro s2 h2 α l a kk ha
      unfold State.thenIf
      split
      · exact h2
      · have hw := taskThen_weight dst corr s2 env (a l) kk
        have : (match a l with | .reply p c => if p.ipc == dst && c == corr then 1 else 0 | _ => 0) = 0 := by
          cases hal : a l with
          | reply p c => exact absurd hal (ha p c)
          | _ => rfl
        rw [this] at hw
        omega
    have hconf : updateReplies dst corr (s1.conform env s1.core.configuration wanted).core.log +
        sumW (replyUnit dst corr) (s1.conform env s1.core.configuration wanted).tasks.flatten ≤ updates dst corr s.core.log := by
      unfold State.conform
      dsimp only
      refine key _ (key _ (key _ (key _ (key _ (key _ ?_ _ _ _ ?_) _ _ _ ?_) _ _ _ ?_) _ _ _ ?_) _ _ _ ?_) _ _ _ ?_
      · exact hA 0
      all_goals (intro p c h; cases h)
    show Answers dst corr ((s1.conform env s1.core.configuration wanted).taskThen env (.reply p k) .none)
    have hw := taskThen_weight dst corr (s1.conform env s1.core.configuration wanted) env (.reply p k) .none
    unfold Answers
    rw [updates_grow (Grows.taskThen _ env _ _), updates_grow (Grows.conform s1 env _ _), hu]
    dsimp only at hw
    omega
  | shutdown =>
    refine Answers.conform (s := { s with core := ({ s.core.logged .shutdown with runlevel := .shutdown } : Core).discardAll env }) ?_ env _ {}
    refine (hl rfl).core (SameReplies.trans (b := { s.core.logged .shutdown with runlevel := .shutdown }) (SameReplies.log rfl) ?_)
    exact SameReplies.quiet (Quiet.discardAll _ env)
  | groupConnect p =>
    refine Answers.core ((hl rfl).taskMsg env (.groupConnect p.pid)) ?_
    dsimp only
    unfold Core.groupConnect
    split
    · exact SameReplies.trans (b := { State.core _ with groups := _ }) (SameReplies.log rfl) (SameReplies.send _ env _ _ (fun _ _ h => by cases h))
    · exact SameReplies.refl _ _ _
  | forwardConnect p =>
    refine Answers.core ((hl rfl).taskMsg env (.forwardConnect p.pid)) ?_
    dsimp only
    unfold Core.forwardConnect
    split
    · exact SameReplies.trans (b := { State.core _ with forwards := _ }) (SameReplies.log rfl) (SameReplies.send _ env _ _ (fun _ _ h => by cases h))
    · exact SameReplies.refl _ _ _
  | forwardReply p => exact Answers.core ((hl rfl).taskMsg env (.forwardReply p.pid)) (SameReplies.log rfl)
  | groupReply p qs =>
    refine Answers.core ((hl rfl).taskMsg env (.groupReply p.pid)) ?_
    exact (SameReplies.log (updateGroup_groups _ p qs).2).trans (SameReplies.quiet (Quiet.check _ env))
  | advertise a =>
    exact (hl rfl).core ((SameReplies.log (updateAdvertise_rest _ a).2).trans (SameReplies.quiet (Quiet.check _ env)))
  | exitEvent pid => exact Answers.core ((hl rfl).taskMsg env (.exit pid)) (SameReplies.log rfl)
  | childExit pid =>
    exact (hl rfl).core (SameReplies.trans (SameReplies.emit _ (.exitEvent pid) (fun _ _ h => by cases h)) (SameReplies.log rfl))
  | ipcDestroyed ipc => exact (hl rfl).core (SameReplies.log rfl)

theorem run_answers (env : Env) (dg : Nat) (model : Model) (np : Pid) (xs : List (Env × Input)) (dst : Ipc) (corr : Corr) :
    Answers dst corr (State.run env dg model np xs) := by
  have h0 : Answers dst corr (State.init env dg model np) :=
    Answers.conform (s := { core := { domainGroups := dg, nextPid := np } }) (Nat.le_refl _) env {} model
  unfold State.run
  generalize State.init env dg model np = s at h0
  induction xs generalizing s with
  | nil => exact h0
  | cons x xs ih => exact ih _ (step_answers h0 x.1 x.2)

/-! ### What comes before the answer -/

/-- The job is done, or seen to before the update is answered. -/
def Owing (j : Job) (dst : Ipc) (corr : Corr) (s : State) : Prop :=
  j.Met s.core ∨ ∃ cs X Y, s.tasks = cs ++ X :: Y ∧ (∃ u ∈ X, replyUnit dst corr u = 1) ∧
    Sees (fun c u => j.Waits c u) (fun c u => j.Runs c u) s.core cs

theorem Owing.core {j : Job} {dst : Ipc} {corr : Corr} {s : State} (h : Owing j dst corr s) {c : Core} (he : Evolves s.core c) :
    Owing j dst corr { s with core := c } := by
  rcases h with h | ⟨cs, X, Y, ht, hx, hs⟩
  · exact Or.inl (Job.met_mono he h)
  · rcases (jobDuty ⟨fun _ => true⟩ j).sees he (Or.inr hs) with h | h
    · exact Or.inl h
    · exact Or.inr ⟨cs, X, Y, ht, hx, h⟩

theorem Owing.taskMsg {j : Job} {dst : Ipc} {corr : Corr} {s : State} (h : Owing j dst corr s) (env : Env) (m : TMsg)
    (hm : MsgLogged j m s.core) : Owing j dst corr (s.taskMsg env m) := by
  rcases h with h | ⟨cs, X, Y, ht, hx, hs⟩
  · exact Or.inl (Job.met_mono (Evolves.of_grows (Grows.taskMsg s env m)) h)
  · have := (jobMsg env j m).onMsg X Y cs s.core hm (Or.inr hs)
    rw [← ht] at this
    rcases this with h | ⟨cs', e, h⟩
    · exact Or.inl h
    · exact Or.inr ⟨cs', X, Y, e, hx, h⟩

theorem Owing.taskThen {j : Job} {dst : Ipc} {corr : Corr} {s : State} (h : Owing j dst corr s) (env : Env) (a : TAct) (k : TKind) :
    Owing j dst corr (s.taskThen env a k) := by
  rcases h with h | ⟨cs, X, Y, ht, hx, hs⟩
  · exact Or.inl (Job.met_mono (Evolves.of_grows (Grows.taskThen s env a k)) h)
  · obtain ⟨e1, e2⟩ := coordThen_waits (taskOps env) (mkGroup s.seq [(a, { kind := k })]) s.tasks (by rw [ht]; simp) s.core
    refine Or.inr ⟨cs, X, Y ++ [mkGroup s.seq [(a, { kind := k })]], ?_, hx, ?_⟩
    · show (coordThen _ _ _ _).2.1 = _
      rw [e2, ht]
      simp
    · show Sees _ _ (coordThen _ _ _ _).1 cs
      rw [e1]
      exact hs

theorem Owing.thenIf {j : Job} {dst : Ipc} {corr : Corr} {s : State} (h : Owing j dst corr s) {α : Type} (env : Env) (l : List α)
    (a : List α → TAct) (k : TKind) : Owing j dst corr (s.thenIf env l a k) := by
  unfold State.thenIf
  split
  · exact h
  · exact h.taskThen env _ k

theorem Owing.conform {j : Job} {dst : Ipc} {corr : Corr} {s : State} (h : Owing j dst corr s) (env : Env) (current wanted : Model) :
    Owing j dst corr (s.conform env current wanted) := by
  unfold State.conform
  exact (((((h.thenIf env _ _ _).thenIf env _ _ _).thenIf env _ _ _).thenIf env _ _ _).thenIf env _ _ _).thenIf env _ _ _

theorem exited_logged {c : Core} {i : Input} {pid : Pid} (h : exitOf (.inp i) = some pid) : exited (c.logged i).log pid = true := by
  show exited (c.log ++ [.inp i]) pid = true
  rw [exited_append]
  simp [exited, h]

theorem step_owing {j : Job} {dst : Ipc} {corr : Corr} {s : State} (h : Owing j dst corr s)
    (hlen : ∀ n pid alias, j = .modGroup n pid alias → n ≤ s.core.log.length) (env : Env) (i : Input) :
    Owing j dst corr (s.step (env, i)) := by
  rw [step_eq]
  have hl : Owing j dst corr { s with core := s.core.logged i } := h.core (Evolves.logged s.core i)
  have mem : Item.inp i ∈ (s.core.logged i).log := List.mem_append.mpr (Or.inr (List.mem_singleton.mpr rfl))
  cases i with
  | lookup l => exact hl.core (Evolves.of_grows (Grows.of_quiet (Quiet.lookupRequest _ env l)))
  | discard k p => exact hl.core (Evolves.of_grows (Grows.of_quiet (Quiet.discardRequest _ env k p)))
  | discoveryLookup k p scope names => exact hl.core (Evolves.of_grows (Grows.send _ env _ _ rfl rfl))
  | discoveryReply k => exact hl.core (Evolves.of_grows (Grows.of_quiet (Quiet.discoveryReply _ env k)))
  | fetchKnown k p => exact hl.core (Evolves.of_grows (Grows.send _ env _ _ rfl rfl))
  | configRequest k p => exact hl.core (Evolves.of_grows (Grows.send _ env _ _ rfl rfl))
  | idle => exact hl.core (Evolves.of_grows (Grows.of_quiet (Quiet.idle _)))
  | abort => exact hl.core (Evolves.of_grows (Grows.of_quiet (Quiet.abort _ env)))
  | configUpdate k p dg wanted =>
    have h1 : Owing j dst corr { s with core := { s.core.logged (.configUpdate k p dg wanted) with domainGroups := dg } } :=
      hl.core (Evolves.of_grows (Grows.same rfl rfl rfl))
    exact (h1.conform env _ wanted).taskThen env _ _
  | shutdown =>
    have h1 : Owing j dst corr { s with core := ({ s.core.logged .shutdown with runlevel := .shutdown } : Core).discardAll env } := by
      refine hl.core (Evolves.trans (b := { s.core.logged .shutdown with runlevel := .shutdown }) (Evolves.of_grows (Grows.same rfl rfl rfl)) ?_)
      exact Evolves.of_grows (Grows.of_quiet (Quiet.discardAll _ env))
    exact h1.conform env _ {}
  | groupConnect p => exact (hl.taskMsg env (.groupConnect p.pid) ⟨p, rfl, mem⟩).core (Evolves.of_grows (Grows.groupConnect _ env p))
  | forwardConnect p => exact (hl.taskMsg env (.forwardConnect p.pid) ⟨p, rfl, mem⟩).core (Evolves.of_grows (Grows.forwardConnect _ env p))
  | forwardReply p => exact (hl.taskMsg env (.forwardReply p.pid) trivial).core (Evolves.of_grows (Grows.forwardReply _ p))
  | groupReply p qs =>
    refine (hl.taskMsg env (.groupReply p.pid) ?_).core (Evolves.of_grows ((Grows.updateGroup _ p qs).trans (Grows.of_quiet (Quiet.check _ env))))
    intro n pid alias e
    refine ⟨p, qs, rfl, ?_⟩
    show _ ∈ (s.core.log ++ [_]).drop n
    rw [List.drop_append_of_le_length (hlen n pid alias e)]
    exact List.mem_append.mpr (Or.inr (List.mem_singleton.mpr rfl))
  | advertise a => exact hl.core (Evolves.of_grows ((Grows.updateAdvertise _ a).trans (Grows.of_quiet (Quiet.check _ env))))
  | exitEvent pid =>
    have hx : exited (s.core.logged (.exitEvent pid)).log pid = true := exited_logged rfl
    refine (hl.taskMsg env (.exit pid) hx).core (Evolves.remove _ pid ?_)
    exact (mem_spawned_mono (Evolves.of_grows (Grows.taskMsg { s with core := s.core.logged (.exitEvent pid) } env (.exit pid)))).2.2.2 pid hx
  | childExit pid =>
    have hx : exited (s.core.logged (.childExit pid)).log pid = true := exited_logged rfl
    have he : Evolves (s.core.logged (.childExit pid)) ((s.core.logged (.childExit pid)).emit (.exitEvent pid)) :=
      Evolves.of_grows (Grows.emit _ _ rfl rfl)
    exact hl.core (he.trans (Evolves.remove _ pid ((mem_spawned_mono he).2.2.2 pid hx)))
  | ipcDestroyed ipc => exact hl.core (Evolves.of_grows (Grows.same rfl rfl rfl))

theorem foldl_owing {j : Job} {dst : Ipc} {corr : Corr} : ∀ (xs : List (Env × Input)) {s : State}, Owing j dst corr s →
    (∀ n pid alias, j = .modGroup n pid alias → n ≤ s.core.log.length) → Owing j dst corr (xs.foldl State.step s)
  | [], _, h, _ => h
  | x :: xs, s, h, hl => foldl_owing xs (step_owing h hl x.1 x.2) (fun n pid a e => by
      obtain ⟨ys, e'⟩ := step_log s x
      rw [e', List.length_append]
      have := hl n pid a e
      omega)

/-- Done, or seen to. -/
def Minded (j : Job) (s : State) : Prop :=
  j.Met s.core ∨ Sees (fun c u => j.Waits c u) (fun c u => j.Runs c u) s.core s.tasks

theorem Minded.taskThen {j : Job} {s : State} (h : Minded j s) (env : Env) (a : TAct) (k : TKind) : Minded j (s.taskThen env a k) := by
  rcases h with h | h
  · exact Or.inl (Job.met_mono (Evolves.of_grows (Grows.taskThen s env a k)) h)
  · exact Or.inr (h.then (taskOps env) _)

theorem Minded.thenIf {j : Job} {s : State} (h : Minded j s) {α : Type} (env : Env) (l : List α) (a : List α → TAct) (k : TKind) :
    Minded j (s.thenIf env l a k) := by
  unfold State.thenIf
  split
  · exact h
  · exact h.taskThen env _ k

/-- A task that is to see to it. -/
theorem Minded.new {j : Job} {s : State} {α : Type} (env : Env) (l : List α) (a : List α → TAct) (k : TKind) (hne : l ≠ [])
    (h : j.Met s.core ∨ j.Waits s.core { id := ⟨s.seq, 0⟩, action := some (a l), body := { kind := k } }) : Minded j (s.thenIf env l a k) := by
  unfold State.thenIf
  rw [if_neg (by simpa using hne)]
  refine (jobDuty env j).onThen (mkGroup s.seq [(a l, { kind := k })]) s.tasks s.core ?_
  rcases h with h | h
  · exact Or.inl h
  · exact Or.inr ⟨_, List.mem_singleton.mpr rfl, h⟩

theorem Minded.replied {j : Job} {s : State} (h : Minded j s) (env : Env) (p : Handle) (corr : Corr) :
    Owing j p.ipc corr (s.taskThen env (.reply p corr) .none) := by
  rcases h with h | h
  · exact Or.inl (Job.met_mono (Evolves.of_grows (Grows.taskThen s env _ _)) h)
  · have hne : s.tasks ≠ [] := by
      intro e
      rw [e] at h
      cases h
    obtain ⟨e1, e2⟩ := coordThen_waits (taskOps env) (mkGroup s.seq [(.reply p corr, { kind := .none })]) s.tasks hne s.core
    refine Or.inr ⟨s.tasks, mkGroup s.seq [(.reply p corr, { kind := .none })], [], ?_, ?_, ?_⟩
    · show (coordThen _ _ _ _).2.1 = _
      rw [e2]
    · exact ⟨_, List.mem_singleton.mpr rfl, by simp [replyUnit]⟩
    · show Sees _ _ (coordThen _ _ _ _).1 s.tasks
      rw [e1]
      exact h

/-- The jobs of a change of the configuration. -/
def Job.Of (c : Core) (wanted : Model) : Job → Prop
  | .rmGroup pid cfg => (pid, cfg) ∈ c.gs ∧ ∀ x ∈ wanted.groups, x.alias ≠ cfg.alias
  | .rmForward pid cfg => (pid, cfg) ∈ c.fs ∧ ∀ x ∈ wanted.forwards, x.alias ≠ cfg.alias
  | .addGroup n cfg => n ≤ c.log.length ∧ cfg ∈ wanted.groups ∧ ∀ q ∈ c.gs, q.2.alias ≠ cfg.alias
  | .addForward n cfg => n ≤ c.log.length ∧ cfg ∈ wanted.forwards ∧ ∀ q ∈ c.fs, q.2.alias ≠ cfg.alias
  | .modGroup n pid alias => n ≤ c.log.length ∧ (∃ q, c.gs.find? (·.2.alias == alias) = some q ∧ q.1 = pid) ∧
      ∃ x ∈ wanted.groups, x.alias = alias ∧ ∀ q ∈ c.gs, q.2 ≠ x

theorem ne_nil_of_mem {α : Type} {x : α} {l : List α} (h : x ∈ l) : l ≠ [] := by
  intro e; rw [e] at h; cases h

/-- The tasks of a change of the configuration see to its jobs. -/
theorem conform_minded {j : Job} (s : State) (env : Env) (wanted : Model) (h : j.Of s.core wanted) :
    Minded j (s.conform env s.core.configuration wanted) := by
  unfold State.conform
  dsimp only
  have gsEq : s.core.configuration.groups = s.core.gs.map (·.2) := by
    show List.map _ _ = List.map _ (List.map _ _)
    rw [List.map_map]; rfl
  have fsEq : s.core.configuration.forwards = s.core.fs.map (·.2) := by
    show List.map _ _ = List.map _ (List.map _ _)
    rw [List.map_map]; rfl
  cases j with
  | rmForward pid cfg =>
    obtain ⟨hg, hx⟩ := h
    have hm : cfg ∈ (calculate FwdCfg.alias s.core.configuration.forwards wanted.forwards).removed :=
      mem_removed.mpr ⟨by rw [fsEq]; exact List.mem_map.mpr ⟨_, hg, rfl⟩, hx⟩
    refine Minded.thenIf (Minded.thenIf (Minded.thenIf (Minded.thenIf (Minded.thenIf ?_ _ _ _ _) _ _ _ _) _ _ _ _) _ _ _ _) _ _ _ _
    exact Minded.new env _ _ _ (ne_nil_of_mem hm) (Or.inr ⟨rfl, hg, _, rfl, cfg, hm, rfl⟩)
  | rmGroup pid cfg =>
    obtain ⟨hg, hx⟩ := h
    have hm : cfg ∈ (calculate GroupCfg.alias s.core.configuration.groups wanted.groups).removed :=
      mem_removed.mpr ⟨by rw [gsEq]; exact List.mem_map.mpr ⟨_, hg, rfl⟩, hx⟩
    refine Minded.thenIf (Minded.thenIf (Minded.thenIf (Minded.thenIf ?_ _ _ _ _) _ _ _ _) _ _ _ _) _ _ _ _
    refine Minded.new env _ _ _ (ne_nil_of_mem hm) ?_
    have he := Evolves.of_grows (Grows.thenIf s env (calculate FwdCfg.alias s.core.configuration.forwards wanted.forwards).removed .rmForwards .exitOnly)
    rcases he.2.1 _ hg with h | h
    · exact Or.inr ⟨rfl, h, _, rfl, cfg, hm, rfl⟩
    · exact Or.inl h
  | addGroup n cfg =>
    obtain ⟨hn, hw, hx⟩ := h
    have hm : cfg ∈ (calculate GroupCfg.alias s.core.configuration.groups wanted.groups).added := by
      refine mem_added.mpr ⟨hw, ?_⟩
      intro x hx'
      rw [gsEq] at hx'
      obtain ⟨q, hq, rfl⟩ := List.mem_map.mp hx'
      exact hx q hq
    refine Minded.thenIf (Minded.thenIf (Minded.thenIf ?_ _ _ _ _) _ _ _ _) _ _ _ _
    refine Minded.new env _ _ _ (ne_nil_of_mem hm) (Or.inr ⟨?_, rfl, _, rfl, hm⟩)
    exact (mem_spawned_drop (Evolves.of_grows ((Grows.thenIf s env _ _ _).trans (Grows.thenIf _ env _ _ _))) hn).1
  | addForward n cfg =>
    obtain ⟨hn, hw, hx⟩ := h
    have hm : cfg ∈ (calculate FwdCfg.alias s.core.configuration.forwards wanted.forwards).added := by
      refine mem_added.mpr ⟨hw, ?_⟩
      intro x hx'
      rw [fsEq] at hx'
      obtain ⟨q, hq, rfl⟩ := List.mem_map.mp hx'
      exact hx q hq
    refine Minded.thenIf (Minded.thenIf ?_ _ _ _ _) _ _ _ _
    refine Minded.new env _ _ _ (ne_nil_of_mem hm) (Or.inr ⟨?_, rfl, _, rfl, hm⟩)
    exact (mem_spawned_drop (Evolves.of_grows ((Grows.thenIf s env _ _ _).trans ((Grows.thenIf _ env _ _ _).trans (Grows.thenIf _ env _ _ _)))) hn).1
  | modGroup n pid alias =>
    obtain ⟨hn, ⟨q, hq, rfl⟩, x, hx, rfl, hne⟩ := h
    have hm : x ∈ (calculate GroupCfg.alias s.core.configuration.groups wanted.groups).modified := by
      refine mem_modified.mpr ⟨hx, ?_, q.2, ?_, by simpa using List.find?_some hq⟩
      · rw [gsEq]
        intro hc
        obtain ⟨r, hr, e⟩ := List.mem_map.mp hc
        exact hne r hr e
      · rw [gsEq]
        exact List.mem_map.mpr ⟨q, List.mem_of_find?_eq_some hq, rfl⟩
    let s1 := s.thenIf env (calculate FwdCfg.alias s.core.configuration.forwards wanted.forwards).removed .rmForwards .exitOnly
    let s2 := s1.thenIf env (calculate GroupCfg.alias s.core.configuration.groups wanted.groups).removed .rmGroups .exitOnly
    let s3 := s2.thenIf env (calculate GroupCfg.alias s.core.configuration.groups wanted.groups).added .addGroups .groupConnect
    let s4 := s3.thenIf env (calculate FwdCfg.alias s.core.configuration.forwards wanted.forwards).added .addForwards .forwardConnect
    let s5 := s4.thenIf env (calculate FwdCfg.alias s.core.configuration.forwards wanted.forwards).modified .modForwards .forwardReply
    show Minded _ (s5.thenIf env (calculate GroupCfg.alias s.core.configuration.groups wanted.groups).modified .modGroups .groupReply)
    have he : Evolves s.core s5.core := Evolves.of_grows ((Grows.thenIf s env _ _ _).trans ((Grows.thenIf s1 env _ _ _).trans
      ((Grows.thenIf s2 env _ _ _).trans ((Grows.thenIf s3 env _ _ _).trans (Grows.thenIf s4 env _ _ _)))))
    have hw := Job.waits_mono he (j := .modGroup n q.1 x.alias)
      (u := { id := ⟨s5.seq, 0⟩, action := some (.modGroups (calculate GroupCfg.alias s.core.configuration.groups wanted.groups).modified),
              body := { kind := .groupReply } })
      ⟨hn, rfl, ⟨q, hq, rfl⟩, _, rfl, x, hm, rfl⟩
    exact Minded.new env _ _ _ (ne_nil_of_mem hm) hw.symm

/-- An update owes its jobs. -/
theorem update_owing {j : Job} (s : State) (env : Env) (corr : Corr) (p : Handle) (dg : Nat) (wanted : Model) (h : j.Of s.core wanted) :
    Owing j p.ipc corr (s.step (env, .configUpdate corr p dg wanted)) := by
  rw [step_eq]
  let s1 : State := { s with core := { s.core.logged (.configUpdate corr p dg wanted) with domainGroups := dg } }
  have h1 : j.Of s1.core wanted := by
    have hlen : ∀ n, n ≤ s.core.log.length → n ≤ s1.core.log.length := by
      intro n hn
      show n ≤ (s.core.log ++ [_]).length
      rw [List.length_append]
      omega
    cases j with
    | modGroup n pid alias => exact ⟨hlen n h.1, h.2⟩
    | addGroup n cfg => exact ⟨hlen n h.1, h.2⟩
    | addForward n cfg => exact ⟨hlen n h.1, h.2⟩
    | rmGroup pid cfg => exact h
    | rmForward pid cfg => exact h
  exact (conform_minded s1 env wanted h1).replied env p corr

theorem reply_weight {dst : Ipc} {corr : Corr} {cs : List (List QUnit)} {X : List QUnit} {Y : List (List QUnit)}
    (h : ∃ u ∈ X, replyUnit dst corr u = 1) : 1 ≤ sumW (replyUnit dst corr) (cs ++ X :: Y).flatten := by
  obtain ⟨u, hu, he⟩ := h
  have : u ∈ (cs ++ X :: Y).flatten := by
    rw [List.mem_flatten]
    exact ⟨X, by simp, hu⟩
  unfold sumW
  rw [← he]
  generalize (cs ++ X :: Y).flatten = l at this
  induction l with
  | nil => cases this
  | cons y ys ih =>
    rw [List.map_cons, List.sum_cons]
    rcases List.mem_cons.mp this with rfl | hm
    · exact Nat.le_add_right _ _
    · exact Nat.le_trans (ih hm) (Nat.le_add_left _ _)

/-- What an update that is answered had to see to is done. -/
theorem answered_met {j : Job} {s : State} {dst : Ipc} {corr : Corr} (ho : Owing j dst corr s) (ha : Answers dst corr s)
    (hu : updates dst corr s.core.log ≤ 1) (hr : Item.out (.updateReply dst corr) ∈ s.core.log) : j.Met s.core := by
  rcases ho with h | ⟨cs, X, Y, ht, hx, _⟩
  · exact h
  · have h1 := reply_weight (cs := cs) (Y := Y) hx
    rw [← ht] at h1
    have h2 : 0 < updateReplies dst corr s.core.log := by
      unfold updateReplies
      rw [List.countP_pos_iff]
      exact ⟨_, hr, by simp⟩
    unfold Answers at ha
    omega

end Casual.QManager
