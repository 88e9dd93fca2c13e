import Verif.QManager.Spec
import Verif.Task.Rel

/-! What the tasks of the queue manager leave alone. -/
namespace Casual.QManager

open Casual.Task Casual.Config

/-- What a task sends or does. -/
def TaskOut : Out → Prop
  | .groupUpdate .. | .forwardUpdate .. | .shutdownRequest .. | .terminate .. | .spawnGroup .. | .spawnForward ..
  | .updateReply .. => True
  | _ => False

/-- The outputs that a step appended to the log. -/
def outsOf (os : List Out) : List Item := os.map .out

theorem mem_outsOf {os : List Out} {x : Item} : x ∈ outsOf os ↔ ∃ o ∈ os, x = .out o := by
  unfold outsOf
  rw [List.mem_map]
  constructor
  · rintro ⟨o, h, rfl⟩; exact ⟨o, h, rfl⟩
  · rintro ⟨o, h, rfl⟩; exact ⟨o, h, rfl⟩

theorem outsOf_append (a b : List Out) : outsOf (a ++ b) = outsOf a ++ outsOf b := List.map_append

/-- Everything the tasks may do to the state. -/
structure Framed (c c' : Core) : Prop where
  queues : c'.queues = c.queues
  pending : c'.pending = c.pending
  runlevel : c'.runlevel = c.runlevel
  remotes : c'.remotes = c.remotes
  domainGroups : c'.domainGroups = c.domainGroups
  pids : c.nextPid ≤ c'.nextPid
  log : ∃ os, c'.log = c.log ++ outsOf os ∧ (∀ o ∈ os, TaskOut o) ∧
    (∀ g ∈ c'.groups, (∃ g0 ∈ c.groups, g.process = g0.process ∧ g.configuration = g0.configuration) ∨
      (.spawnGroup g.process.pid g.configuration ∈ os ∧ g.process.ipc = 0)) ∧
    (∀ g ∈ c'.forwards, (∃ g0 ∈ c.forwards, g.process = g0.process ∧ g.configuration = g0.configuration) ∨
      (.spawnForward g.process.pid g.configuration ∈ os ∧ g.process.ipc = 0)) ∧
    (∀ p cfg, Out.spawnGroup p cfg ∈ os → c.nextPid ≤ p ∧ p < c'.nextPid ∧ ∃ g ∈ c'.groups, g.process.pid = p) ∧
    (∀ p cfg, Out.spawnForward p cfg ∈ os → c.nextPid ≤ p ∧ p < c'.nextPid ∧ ∃ g ∈ c'.forwards, g.process.pid = p)
  groupsKept : ∀ g0 ∈ c.groups, ∃ g ∈ c'.groups, g.process = g0.process ∧ g.configuration = g0.configuration
  forwardsKept : ∀ g0 ∈ c.forwards, ∃ g ∈ c'.forwards, g.process = g0.process ∧ g.configuration = g0.configuration

theorem Framed.refl (c : Core) : Framed c c where
  queues := rfl
  pending := rfl
  runlevel := rfl
  remotes := rfl
  domainGroups := rfl
  pids := Nat.le_refl _
  log := ⟨[], by simp [outsOf], by simp, fun g hg => Or.inl ⟨g, hg, rfl, rfl⟩, fun g hg => Or.inl ⟨g, hg, rfl, rfl⟩,
    by simp, by simp⟩
  groupsKept := fun g hg => ⟨g, hg, rfl, rfl⟩
  forwardsKept := fun g hg => ⟨g, hg, rfl, rfl⟩

theorem Framed.trans {a b c : Core} (h1 : Framed a b) (h2 : Framed b c) : Framed a c where
  queues := h2.queues.trans h1.queues
  pending := h2.pending.trans h1.pending
  runlevel := h2.runlevel.trans h1.runlevel
  remotes := h2.remotes.trans h1.remotes
  domainGroups := h2.domainGroups.trans h1.domainGroups
  pids := Nat.le_trans h1.pids h2.pids
  log := by
    obtain ⟨o1, l1, t1, g1, f1, s1, u1⟩ := h1.log
    obtain ⟨o2, l2, t2, g2, f2, s2, u2⟩ := h2.log
    refine ⟨o1 ++ o2, ?_, ?_, ?_, ?_, ?_, ?_⟩
    · rw [l2, l1, List.append_assoc, outsOf_append]
    · intro o ho
      exact (List.mem_append.mp ho).elim (t1 o) (t2 o)
    · intro g hg
      rcases g2 g hg with ⟨g0, hg0, hp, hc⟩ | ⟨hs, hi⟩
      · rcases g1 g0 hg0 with ⟨g00, hg00, hp', hc'⟩ | ⟨hs, hi⟩
        · exact Or.inl ⟨g00, hg00, hp.trans hp', hc.trans hc'⟩
        · rw [← hp] at hs hi
          rw [← hc] at hs
          exact Or.inr ⟨List.mem_append.mpr (Or.inl hs), hi⟩
      · exact Or.inr ⟨List.mem_append.mpr (Or.inr hs), hi⟩
    · intro g hg
      rcases f2 g hg with ⟨g0, hg0, hp, hc⟩ | ⟨hs, hi⟩
      · rcases f1 g0 hg0 with ⟨g00, hg00, hp', hc'⟩ | ⟨hs, hi⟩
        · exact Or.inl ⟨g00, hg00, hp.trans hp', hc.trans hc'⟩
        · rw [← hp] at hs hi
          rw [← hc] at hs
          exact Or.inr ⟨List.mem_append.mpr (Or.inl hs), hi⟩
      · exact Or.inr ⟨List.mem_append.mpr (Or.inr hs), hi⟩
    · intro p cfg hp
      rcases List.mem_append.mp hp with hp | hp
      · obtain ⟨ha, hb, g, hg, hgp⟩ := s1 p cfg hp
        obtain ⟨g', hg', hp', _⟩ := h2.groupsKept g hg
        exact ⟨ha, Nat.lt_of_lt_of_le hb h2.pids, g', hg', by rw [hp']; exact hgp⟩
      · obtain ⟨ha, hb, hg⟩ := s2 p cfg hp
        exact ⟨Nat.le_trans h1.pids ha, hb, hg⟩
    · intro p cfg hp
      rcases List.mem_append.mp hp with hp | hp
      · obtain ⟨ha, hb, g, hg, hgp⟩ := u1 p cfg hp
        obtain ⟨g', hg', hp', _⟩ := h2.forwardsKept g hg
        exact ⟨ha, Nat.lt_of_lt_of_le hb h2.pids, g', hg', by rw [hp']; exact hgp⟩
      · obtain ⟨ha, hb, hg⟩ := u2 p cfg hp
        exact ⟨Nat.le_trans h1.pids ha, hb, hg⟩
  groupsKept := fun g hg => by
    obtain ⟨g1, hg1, hp, hc⟩ := h1.groupsKept g hg
    obtain ⟨g2, hg2, hp2, hc2⟩ := h2.groupsKept g1 hg1
    exact ⟨g2, hg2, hp2.trans hp, hc2.trans hc⟩
  forwardsKept := fun g hg => by
    obtain ⟨g1, hg1, hp, hc⟩ := h1.forwardsKept g hg
    obtain ⟨g2, hg2, hp2, hc2⟩ := h2.forwardsKept g1 hg1
    exact ⟨g2, hg2, hp2.trans hp, hc2.trans hc⟩

/-- One output that is not a spawn, the rest of the state the same. -/
theorem Framed.emit (c : Core) (o : Out) (h : TaskOut o) (hg : ∀ p cfg, o ≠ .spawnGroup p cfg)
    (hf : ∀ p cfg, o ≠ .spawnForward p cfg) : Framed c (c.emit o) where
  queues := rfl
  pending := rfl
  runlevel := rfl
  remotes := rfl
  domainGroups := rfl
  pids := Nat.le_refl _
  log := ⟨[o], rfl, by simpa using h, fun g hg => Or.inl ⟨g, hg, rfl, rfl⟩, fun g hg => Or.inl ⟨g, hg, rfl, rfl⟩,
    fun p cfg hm => absurd (List.mem_singleton.mp hm).symm (hg p cfg),
    fun p cfg hm => absurd (List.mem_singleton.mp hm).symm (hf p cfg)⟩
  groupsKept := fun g hg => ⟨g, hg, rfl, rfl⟩
  forwardsKept := fun g hg => ⟨g, hg, rfl, rfl⟩

theorem Framed.send (c : Core) (env : Env) (dst : Ipc) (o : Out) (h : TaskOut o) (hg : ∀ p cfg, o ≠ .spawnGroup p cfg)
    (hf : ∀ p cfg, o ≠ .spawnForward p cfg) : Framed c (c.send env dst o) := by
  unfold Core.send
  split
  · exact Framed.emit c o h hg hf
  · exact Framed.refl c

theorem Framed.sendShutdown (c : Core) (env : Env) (p : Handle) : Framed c (c.sendShutdown env p) := by
  unfold Core.sendShutdown
  split
  · exact Framed.send c env _ _ trivial (fun _ _ h => by cases h) (fun _ _ h => by cases h)
  · exact Framed.emit c _ trivial (fun _ _ h => by cases h) (fun _ _ h => by cases h)

theorem Framed.foldl {α : Type} (f : Core → α → Core) (h : ∀ c x, Framed c (f c x)) :
    ∀ (l : List α) (c : Core), Framed c (l.foldl f c)
  | [], c => Framed.refl c
  | x :: xs, c => (h c x).trans (Framed.foldl f h xs (f c x))

theorem foldl_sendShutdown_groups {C : Type} (env : Env) (l : List (Entity C)) : ∀ (c : Core),
    (l.foldl (fun c g => c.sendShutdown env g.process) c).groups = c.groups ∧
    (l.foldl (fun c g => c.sendShutdown env g.process) c).forwards = c.forwards := by
  induction l with
  | nil => intro c; exact ⟨rfl, rfl⟩
  | cons x xs ih =>
    intro c
    obtain ⟨h1, h2⟩ := ih (c.sendShutdown env x.process)
    have h3 : (c.sendShutdown env x.process).groups = c.groups ∧ (c.sendShutdown env x.process).forwards = c.forwards := by
      unfold Core.sendShutdown Core.send Core.emit
      split
      · split <;> exact ⟨rfl, rfl⟩
      · exact ⟨rfl, rfl⟩
    exact ⟨h1.trans h3.1, h2.trans h3.2⟩

/-- Changing the lifetime of some groups. -/
theorem Framed.mapGroups {c c' : Core} (h : Framed c c') (hg : c'.groups = c.groups) (f : Entity GroupCfg → Entity GroupCfg)
    (hf : ∀ g, (f g).process = g.process ∧ (f g).configuration = g.configuration) :
    Framed c { c' with groups := c.groups.map f } where
  queues := h.queues
  pending := h.pending
  runlevel := h.runlevel
  remotes := h.remotes
  domainGroups := h.domainGroups
  pids := h.pids
  log := by
    obtain ⟨o1, l1, t1, g1, f1, s1, u1⟩ := h.log
    refine ⟨o1, l1, t1, ?_, f1, ?_, u1⟩
    · intro g hg'
      obtain ⟨g0, hg0, rfl⟩ := List.mem_map.mp hg'
      exact Or.inl ⟨g0, hg0, hf g0⟩
    · intro p cfg hp
      obtain ⟨ha, hb, g, hg', hgp⟩ := s1 p cfg hp
      rw [hg] at hg'
      exact ⟨ha, hb, f g, List.mem_map.mpr ⟨g, hg', rfl⟩, by rw [(hf g).1]; exact hgp⟩
  groupsKept := fun g hg' => ⟨f g, List.mem_map.mpr ⟨g, hg', rfl⟩, hf g⟩
  forwardsKept := h.forwardsKept

theorem Framed.mapForwards {c c' : Core} (h : Framed c c') (hg : c'.forwards = c.forwards) (f : Entity FwdCfg → Entity FwdCfg)
    (hf : ∀ g, (f g).process = g.process ∧ (f g).configuration = g.configuration) :
    Framed c { c' with forwards := c.forwards.map f } where
  queues := h.queues
  pending := h.pending
  runlevel := h.runlevel
  remotes := h.remotes
  domainGroups := h.domainGroups
  pids := h.pids
  log := by
    obtain ⟨o1, l1, t1, g1, f1, s1, u1⟩ := h.log
    refine ⟨o1, l1, t1, g1, ?_, s1, ?_⟩
    · intro g hg'
      obtain ⟨g0, hg0, rfl⟩ := List.mem_map.mp hg'
      exact Or.inl ⟨g0, hg0, hf g0⟩
    · intro p cfg hp
      obtain ⟨ha, hb, g, hg', hgp⟩ := u1 p cfg hp
      rw [hg] at hg'
      exact ⟨ha, hb, f g, List.mem_map.mpr ⟨g, hg', rfl⟩, by rw [(hf g).1]; exact hgp⟩
  groupsKept := h.groupsKept
  forwardsKept := fun g hg' => ⟨f g, List.mem_map.mpr ⟨g, hg', rfl⟩, hf g⟩

theorem Framed.spawnGroups (c : Core) (cfgs : List GroupCfg) : Framed c (c.spawnGroups cfgs) := by
  unfold Core.spawnGroups
  refine Framed.foldl _ ?_ cfgs c
  intro c cfg
  refine ⟨rfl, rfl, rfl, rfl, rfl, Nat.le_succ _, ?_, ?_, fun g hg => ⟨g, hg, rfl, rfl⟩⟩
  · refine ⟨[.spawnGroup c.nextPid cfg], rfl, ?_, ?_, fun g hg => Or.inl ⟨g, hg, rfl, rfl⟩, ?_, ?_⟩
    · intro o ho
      rw [List.mem_singleton] at ho
      subst ho; trivial
    · intro g hg
      rcases List.mem_append.mp hg with hg | hg
      · exact Or.inl ⟨g, hg, rfl, rfl⟩
      · rw [List.mem_singleton] at hg
        subst hg
        exact Or.inr ⟨List.mem_singleton.mpr rfl, rfl⟩
    · intro p cfg' hp
      rw [List.mem_singleton] at hp
      injection hp with hp _
      subst hp
      exact ⟨Nat.le_refl _, Nat.lt_succ_self _, _, List.mem_append.mpr (Or.inr (List.mem_singleton.mpr rfl)), rfl⟩
    · intro p cfg' hp
      rw [List.mem_singleton] at hp
      cases hp
  · intro g hg
    exact ⟨g, List.mem_append.mpr (Or.inl hg), rfl, rfl⟩

theorem Framed.spawnForwards (c : Core) (cfgs : List FwdCfg) : Framed c (c.spawnForwards cfgs) := by
  unfold Core.spawnForwards
  refine Framed.foldl _ ?_ cfgs c
  intro c cfg
  refine ⟨rfl, rfl, rfl, rfl, rfl, Nat.le_succ _, ?_, fun g hg => ⟨g, hg, rfl, rfl⟩, ?_⟩
  · refine ⟨[.spawnForward c.nextPid cfg], rfl, ?_, fun g hg => Or.inl ⟨g, hg, rfl, rfl⟩, ?_, ?_, ?_⟩
    · intro o ho
      rw [List.mem_singleton] at ho
      subst ho; trivial
    · intro g hg
      rcases List.mem_append.mp hg with hg | hg
      · exact Or.inl ⟨g, hg, rfl, rfl⟩
      · rw [List.mem_singleton] at hg
        subst hg
        exact Or.inr ⟨List.mem_singleton.mpr rfl, rfl⟩
    · intro p cfg' hp
      rw [List.mem_singleton] at hp
      cases hp
    · intro p cfg' hp
      rw [List.mem_singleton] at hp
      injection hp with hp _
      subst hp
      exact ⟨Nat.le_refl _, Nat.lt_succ_self _, _, List.mem_append.mpr (Or.inr (List.mem_singleton.mpr rfl)), rfl⟩
  · intro g hg
    exact ⟨g, List.mem_append.mpr (Or.inl hg), rfl, rfl⟩

theorem foldl_fst_framed {α : Type} (f : Core × List Pid → α → Core × List Pid) (h : ∀ r x, Framed r.1 (f r x).1) :
    ∀ (l : List α) (r : Core × List Pid), Framed r.1 (l.foldl f r).1
  | [], r => Framed.refl r.1
  | x :: xs, r => (h r x).trans (foldl_fst_framed f h xs (f r x))

theorem Framed.act (env : Env) (a : TAct) (b : TBody) (c : Core) : Framed c (taskAct env a b c).1 := by
  cases a with
  | addGroups cfgs => exact Framed.spawnGroups c cfgs
  | addForwards cfgs => exact Framed.spawnForwards c cfgs
  | rmGroups cfgs =>
    show Framed c (c.shutdownGroups env cfgs).1
    unfold Core.shutdownGroups
    dsimp only
    refine Framed.mapGroups (Framed.foldl _ (fun c (g : Entity GroupCfg) => Framed.sendShutdown c env g.process) _ c)
      (foldl_sendShutdown_groups env _ c).1 _ ?_
    intro g
    split <;> exact ⟨rfl, rfl⟩
  | rmForwards cfgs =>
    show Framed c (c.shutdownForwards env cfgs).1
    unfold Core.shutdownForwards
    dsimp only
    refine Framed.mapForwards (Framed.foldl _ (fun c (g : Entity FwdCfg) => Framed.sendShutdown c env g.process) _ c)
      (foldl_sendShutdown_groups env _ c).2 _ ?_
    intro g
    split <;> exact ⟨rfl, rfl⟩
  | modGroups cfgs =>
    show Framed c (c.modifyGroups env cfgs).1
    unfold Core.modifyGroups
    refine foldl_fst_framed _ ?_ cfgs (c, [])
    intro r x
    split
    · exact Framed.send _ env _ _ trivial (fun _ _ h => by cases h) (fun _ _ h => by cases h)
    · exact Framed.refl _
  | modForwards cfgs =>
    show Framed c (c.modifyForwards env cfgs).1
    unfold Core.modifyForwards
    refine foldl_fst_framed _ ?_ cfgs (c, [])
    intro r x
    split
    · exact Framed.send _ env _ _ trivial (fun _ _ h => by cases h) (fun _ _ h => by cases h)
    · exact Framed.refl _
  | reply p corr =>
    exact Framed.send c env _ _ trivial (fun _ _ h => by cases h) (fun _ _ h => by cases h)

theorem taskHandle_fst {b : TBody} {m : TMsg} {h : Core → Core × TBody × Dispatch} (hh : taskHandle b m = some h) (c : Core) :
    (h c).1 = c := by
  unfold taskHandle at hh
  split at hh
  all_goals first
    | (cases hh; done)
    | (injection hh with hh; subst hh; rfl)

theorem framedKeeps (env : Env) : Keeps (taskOps env) Framed where
  refl := Framed.refl
  trans := Framed.trans
  act := Framed.act env
  handle := fun b m h hh c => by
    rw [taskHandle_fst (b := b) (m := m) hh c]
    exact Framed.refl c

theorem Framed.taskMsg (s : State) (env : Env) (m : TMsg) : Framed s.core (s.taskMsg env m).core :=
  (framedKeeps env).coordMsg m s.tasks s.core

theorem Framed.taskThen (s : State) (env : Env) (a : TAct) (k : TKind) : Framed s.core (s.taskThen env a k).core :=
  (framedKeeps env).coordThen _ s.tasks s.core

theorem Framed.thenIf {α : Type} (s : State) (env : Env) (l : List α) (a : List α → TAct) (k : TKind) :
    Framed s.core (s.thenIf env l a k).core := by
  unfold State.thenIf
  split
  · exact Framed.refl _
  · exact Framed.taskThen s env _ k

theorem Framed.conform (s : State) (env : Env) (current wanted : Model) : Framed s.core (s.conform env current wanted).core := by
  unfold State.conform
  dsimp only
  exact (Framed.thenIf s env _ _ _).trans ((Framed.thenIf _ env _ _ _).trans ((Framed.thenIf _ env _ _ _).trans
    ((Framed.thenIf _ env _ _ _).trans ((Framed.thenIf _ env _ _ _).trans (Framed.thenIf _ env _ _ _)))))

/-- A configuration update: the groups of the domain change, then the tasks. -/
theorem Framed.configUpdate (s : State) (env : Env) (corr : Corr) (p : Handle) (dg : Nat) (wanted : Model) :
    Framed { s.core with domainGroups := dg } (s.configUpdate env corr p dg wanted).core := by
  unfold State.configUpdate
  dsimp only
  exact (Framed.conform { s with core := { s.core with domainGroups := dg } } env _ _).trans (Framed.taskThen _ env _ _)

end Casual.QManager
