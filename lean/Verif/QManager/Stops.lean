import Verif.QManager.Props3
import Verif.Task.Bound

/-!
  Who is told to stop (C142).
-/
namespace Casual.QManager

open Casual.Task Casual.Config

section
variable (ga fa : Name → Prop)

/-- The input leaves the queue groups with an alias in `ga`, and the forward groups with an alias in `fa`, as they are
wanted: an update wants them still; if it ends the manager there are none to keep. -/
def StillWanted : Input → Prop
  | .configUpdate _ _ _ wanted =>
    (∀ n, ga n → ∃ x ∈ wanted.groups, x.alias = n) ∧ (∀ n, fa n → ∃ x ∈ wanted.forwards, x.alias = n)
  | .shutdown | .abort => (∀ n, ¬ ga n) ∧ (∀ n, ¬ fa n)
  | _ => True

/-- Everything that is told to stop is a child that was spawned and need not be kept; a shutdown request goes to an ipc that it
has connected with. -/
def StopsRight (log : List Item) : Prop :=
  (∀ d, Item.out (.shutdownRequest d) ∈ log → d ≠ 0 ∧
    ((∃ pid cfg, (pid, cfg) ∈ spawnedGroups log ∧ ¬ ga cfg.alias ∧ Item.inp (.groupConnect ⟨pid, d⟩) ∈ log) ∨
     (∃ pid cfg, (pid, cfg) ∈ spawnedForwards log ∧ ¬ fa cfg.alias ∧ Item.inp (.forwardConnect ⟨pid, d⟩) ∈ log))) ∧
  (∀ pid, Item.out (.terminate pid) ∈ log →
    (∃ cfg, (pid, cfg) ∈ spawnedGroups log ∧ ¬ ga cfg.alias) ∨ (∃ cfg, (pid, cfg) ∈ spawnedForwards log ∧ ¬ fa cfg.alias))

/-- Each child was spawned, and its ipc is the one it connected with. -/
structure Known (c : Core) : Prop where
  groups : ∀ g ∈ c.groups, (g.process.pid, g.configuration) ∈ spawnedGroups c.log ∧
    (g.process.ipc ≠ 0 → Item.inp (.groupConnect g.process) ∈ c.log)
  forwards : ∀ g ∈ c.forwards, (g.process.pid, g.configuration) ∈ spawnedForwards c.log ∧
    (g.process.ipc ≠ 0 → Item.inp (.forwardConnect g.process) ∈ c.log)
  stops : StopsRight ga fa c.log

/-- The item tells nobody to stop. -/
def NoStop : Item → Prop
  | .out (.shutdownRequest _) | .out (.terminate _) => False
  | _ => True

/-- What is to be removed need not be kept. -/
def ActOk : TAct → Prop
  | .rmGroups cfgs => ∀ x ∈ cfgs, ¬ ga x.alias
  | .rmForwards cfgs => ∀ x ∈ cfgs, ¬ fa x.alias
  | _ => True

variable {ga fa}

theorem mem_spawnedGroups_append {a b : List Item} {q : Pid × GroupCfg} (h : q ∈ spawnedGroups a) : q ∈ spawnedGroups (a ++ b) := by
  rw [spawnedGroups_append]
  exact List.mem_append.mpr (Or.inl h)

theorem mem_spawnedForwards_append {a b : List Item} {q : Pid × FwdCfg} (h : q ∈ spawnedForwards a) : q ∈ spawnedForwards (a ++ b) := by
  rw [spawnedForwards_append]
  exact List.mem_append.mpr (Or.inl h)

theorem mem_left {α : Type} {a b : List α} {x : α} (h : x ∈ a) : x ∈ a ++ b := List.mem_append.mpr (Or.inl h)

theorem StopsRight.grow {log ys : List Item} (h : StopsRight ga fa log) (hy : ∀ y ∈ ys, NoStop y) : StopsRight ga fa (log ++ ys) := by
  refine ⟨fun d hd => ?_, fun pid hd => ?_⟩
  · rcases List.mem_append.mp hd with hd | hd
    · obtain ⟨h0, hd⟩ := h.1 d hd
      refine ⟨h0, ?_⟩
      rcases hd with ⟨pid, cfg, h1, h2, h3⟩ | ⟨pid, cfg, h1, h2, h3⟩
      · exact Or.inl ⟨pid, cfg, mem_spawnedGroups_append h1, h2, mem_left h3⟩
      · exact Or.inr ⟨pid, cfg, mem_spawnedForwards_append h1, h2, mem_left h3⟩
    · exact absurd (hy _ hd) (fun h => h)
  · rcases List.mem_append.mp hd with hd | hd
    · rcases h.2 pid hd with ⟨cfg, h1, h2⟩ | ⟨cfg, h1, h2⟩
      · exact Or.inl ⟨cfg, mem_spawnedGroups_append h1, h2⟩
      · exact Or.inr ⟨cfg, mem_spawnedForwards_append h1, h2⟩
    · exact absurd (hy _ hd) (fun h => h)

/-- The log grows by what tells nobody to stop, and there are no new children. -/
theorem Known.grow {c c' : Core} (h : Known ga fa c) (ys : List Item) (hl : c'.log = c.log ++ ys) (hy : ∀ y ∈ ys, NoStop y)
    (hg : ∀ g ∈ c'.groups, (∃ g0 ∈ c.groups, g0.process = g.process ∧ g0.configuration = g.configuration) ∨
      ((g.process.pid, g.configuration) ∈ spawnedGroups c'.log ∧ (g.process.ipc ≠ 0 → Item.inp (.groupConnect g.process) ∈ c'.log)))
    (hf : ∀ g ∈ c'.forwards, (∃ g0 ∈ c.forwards, g0.process = g.process ∧ g0.configuration = g.configuration) ∨
      ((g.process.pid, g.configuration) ∈ spawnedForwards c'.log ∧ (g.process.ipc ≠ 0 → Item.inp (.forwardConnect g.process) ∈ c'.log))) :
    Known ga fa c' where
  groups := fun g hm => by
    rcases hg g hm with ⟨g0, hm0, e1, e2⟩ | h1
    · rw [hl, ← e1, ← e2]
      exact ⟨mem_spawnedGroups_append (h.groups g0 hm0).1, fun hi => mem_left ((h.groups g0 hm0).2 hi)⟩
    · exact h1
  forwards := fun g hm => by
    rcases hf g hm with ⟨g0, hm0, e1, e2⟩ | h1
    · rw [hl, ← e1, ← e2]
      exact ⟨mem_spawnedForwards_append (h.forwards g0 hm0).1, fun hi => mem_left ((h.forwards g0 hm0).2 hi)⟩
    · exact h1
  stops := by rw [hl]; exact h.stops.grow hy

theorem Known.same {c c' : Core} (h : Known ga fa c) (ys : List Item) (hl : c'.log = c.log ++ ys) (hy : ∀ y ∈ ys, NoStop y)
    (hg : ∀ g ∈ c'.groups, ∃ g0 ∈ c.groups, g0.process = g.process ∧ g0.configuration = g.configuration)
    (hf : ∀ g ∈ c'.forwards, ∃ g0 ∈ c.forwards, g0.process = g.process ∧ g0.configuration = g.configuration) : Known ga fa c' :=
  h.grow ys hl hy (fun g hm => Or.inl (hg g hm)) (fun g hm => Or.inl (hf g hm))

theorem Known.emit {c : Core} (h : Known ga fa c) (o : Out) (ho : NoStop (.out o)) : Known ga fa (c.emit o) :=
  h.same [.out o] rfl (fun y hy => by rw [List.mem_singleton.mp hy]; exact ho) (fun g hm => ⟨g, hm, rfl, rfl⟩) (fun g hm => ⟨g, hm, rfl, rfl⟩)

theorem Known.send {c : Core} (h : Known ga fa c) (env : Env) (d : Ipc) (o : Out) (ho : NoStop (.out o)) : Known ga fa (c.send env d o) := by
  unfold Core.send
  split
  · exact h.emit o ho
  · exact h

theorem Known.foldl {α : Type} (f : Core → α → Core) (hf : ∀ c x, Known ga fa c → Known ga fa (f c x)) :
    ∀ (l : List α) (c : Core), Known ga fa c → Known ga fa (l.foldl f c)
  | [], _, h => h
  | x :: xs, c, h => Known.foldl f hf xs _ (hf c x h)

/-- Nothing changes but what has to do with the registry. -/
theorem Known.iff {c c' : Core} (h : Known ga fa c) (hl : c'.log = c.log) (hg : c'.groups = c.groups) (hf : c'.forwards = c.forwards) :
    Known ga fa c' :=
  h.same [] (by rw [hl, List.append_nil]) (fun y hy => by cases hy) (fun g hm => ⟨g, by rw [← hg]; exact hm, rfl, rfl⟩)
    (fun g hm => ⟨g, by rw [← hf]; exact hm, rfl, rfl⟩)

theorem Known.pending {c : Core} (h : Known ga fa c) (l : List Lookup) : Known ga fa { c with pending := l } := h.iff rfl rfl rfl

theorem Known.check {c : Core} (h : Known ga fa c) (env : Env) : Known ga fa (c.check env) := by
  unfold Core.check
  refine Known.foldl _ ?_ _ _ (h.pending [])
  intro acc l ha
  split
  · split
    · exact ha.emit _ trivial
    · exact ha.pending _
  · exact ha.pending _

theorem Known.discardAll {c : Core} (h : Known ga fa c) (env : Env) : Known ga fa (c.discardAll env) := by
  unfold Core.discardAll
  refine Known.foldl _ (fun c l hc => ?_) _ _ (h.pending [])
  show Known ga fa (Core.replyAbsent c env l)
  unfold Core.replyAbsent
  exact hc.send env _ _ trivial

theorem Known.absentQueue {c : Core} (h : Known ga fa c) (env : Env) (l : Lookup) : Known ga fa (c.absentQueue env l) := by
  unfold Core.absentQueue
  split
  · exact h.send env _ _ trivial
  · exact h.pending _

theorem Known.lookupRequest {c : Core} (h : Known ga fa c) (env : Env) (l : Lookup) : Known ga fa (c.lookupRequest env l) := by
  unfold Core.lookupRequest
  split
  · exact h.send env _ _ trivial
  · split
    · split
      · exact h.send env _ _ trivial
      · exact (h.emit (.discoveryRequest l.name l.corr) trivial).pending _
    · split
      · exact h.send env _ _ trivial
      · exact h.absentQueue env l
    · split
      · exact h.send env _ _ trivial
      · exact h.absentQueue env l

theorem Known.discardRequest {c : Core} (h : Known ga fa c) (env : Env) (corr : Corr) (p : Handle) : Known ga fa (c.discardRequest env corr p) := by
  unfold Core.discardRequest
  split
  · exact (h.pending _).send env _ _ trivial
  · exact h.send env _ _ trivial

theorem Known.discoveryReply {c : Core} (h : Known ga fa c) (env : Env) (corr : Corr) : Known ga fa (c.discoveryReply env corr) := by
  unfold Core.discoveryReply
  dsimp only
  have h := h.check env
  generalize c.check env = c at h
  split
  · split
    · exact (h.pending _).send env _ _ trivial
    · exact h
  · exact h

/-! ### The actions -/

theorem Known.stopG {c : Core} (h : Known ga fa c) (env : Env) {g : Entity GroupCfg} (hn : ¬ ga g.configuration.alias)
    (hs : (g.process.pid, g.configuration) ∈ spawnedGroups c.log ∧ (g.process.ipc ≠ 0 → Item.inp (.groupConnect g.process) ∈ c.log)) :
    Known ga fa (c.sendShutdown env g.process) := by
  have key : ∀ o, (o = Out.shutdownRequest g.process.ipc ∧ g.process.ipc ≠ 0) ∨ o = Out.terminate g.process.pid → Known ga fa (c.emit o) := by
    intro o ho
    refine ⟨fun x hm => ?_, fun x hm => ?_, ?_⟩
    · exact ⟨mem_spawnedGroups_append (h.groups x hm).1, fun hi => mem_left ((h.groups x hm).2 hi)⟩
    · exact ⟨mem_spawnedForwards_append (h.forwards x hm).1, fun hi => mem_left ((h.forwards x hm).2 hi)⟩
    · have hg := h.stops.grow (ys := []) (fun y hy => by cases hy)
      refine ⟨fun d hd => ?_, fun pid hd => ?_⟩
      · rcases List.mem_append.mp hd with hd | hd
        · obtain ⟨h0, hd⟩ := h.stops.1 d hd
          refine ⟨h0, ?_⟩
          rcases hd with ⟨pid, cfg, h1, h2, h3⟩ | ⟨pid, cfg, h1, h2, h3⟩
          · exact Or.inl ⟨pid, cfg, mem_spawnedGroups_append h1, h2, mem_left h3⟩
          · exact Or.inr ⟨pid, cfg, mem_spawnedForwards_append h1, h2, mem_left h3⟩
        · have e := List.mem_singleton.mp hd
          injection e with e
          rcases ho with ⟨ho, h0⟩ | ho
          · rw [ho] at e
            injection e with e
            subst e
            exact ⟨h0, Or.inl ⟨_, _, mem_spawnedGroups_append hs.1, hn, mem_left (hs.2 h0)⟩⟩
          · rw [ho] at e; cases e
      · rcases List.mem_append.mp hd with hd | hd
        · rcases h.stops.2 pid hd with ⟨cfg, h1, h2⟩ | ⟨cfg, h1, h2⟩
          · exact Or.inl ⟨cfg, mem_spawnedGroups_append h1, h2⟩
          · exact Or.inr ⟨cfg, mem_spawnedForwards_append h1, h2⟩
        · have e := List.mem_singleton.mp hd
          injection e with e
          rcases ho with ⟨ho, h0⟩ | ho
          · rw [ho] at e; cases e
          · rw [ho] at e
            injection e with e
            subst e
            exact Or.inl ⟨_, mem_spawnedGroups_append hs.1, hn⟩
  unfold Core.sendShutdown
  split
  · rename_i h0
    unfold Core.send
    split
    · exact key _ (Or.inl ⟨rfl, h0⟩)
    · exact h
  · exact key _ (Or.inr rfl)

theorem Known.stopF {c : Core} (h : Known ga fa c) (env : Env) {g : Entity FwdCfg} (hn : ¬ fa g.configuration.alias)
    (hs : (g.process.pid, g.configuration) ∈ spawnedForwards c.log ∧ (g.process.ipc ≠ 0 → Item.inp (.forwardConnect g.process) ∈ c.log)) :
    Known ga fa (c.sendShutdown env g.process) := by
  have key : ∀ o, (o = Out.shutdownRequest g.process.ipc ∧ g.process.ipc ≠ 0) ∨ o = Out.terminate g.process.pid → Known ga fa (c.emit o) := by
    intro o ho
    refine ⟨fun x hm => ?_, fun x hm => ?_, ?_⟩
    · exact ⟨mem_spawnedGroups_append (h.groups x hm).1, fun hi => mem_left ((h.groups x hm).2 hi)⟩
    · exact ⟨mem_spawnedForwards_append (h.forwards x hm).1, fun hi => mem_left ((h.forwards x hm).2 hi)⟩
    · refine ⟨fun d hd => ?_, fun pid hd => ?_⟩
      · rcases List.mem_append.mp hd with hd | hd
        · obtain ⟨h0, hd⟩ := h.stops.1 d hd
          refine ⟨h0, ?_⟩
          rcases hd with ⟨pid, cfg, h1, h2, h3⟩ | ⟨pid, cfg, h1, h2, h3⟩
          · exact Or.inl ⟨pid, cfg, mem_spawnedGroups_append h1, h2, mem_left h3⟩
          · exact Or.inr ⟨pid, cfg, mem_spawnedForwards_append h1, h2, mem_left h3⟩
        · have e := List.mem_singleton.mp hd
          injection e with e
          rcases ho with ⟨ho, h0⟩ | ho
          · rw [ho] at e
            injection e with e
            subst e
            exact ⟨h0, Or.inr ⟨_, _, mem_spawnedForwards_append hs.1, hn, mem_left (hs.2 h0)⟩⟩
          · rw [ho] at e; cases e
      · rcases List.mem_append.mp hd with hd | hd
        · rcases h.stops.2 pid hd with ⟨cfg, h1, h2⟩ | ⟨cfg, h1, h2⟩
          · exact Or.inl ⟨cfg, mem_spawnedGroups_append h1, h2⟩
          · exact Or.inr ⟨cfg, mem_spawnedForwards_append h1, h2⟩
        · have e := List.mem_singleton.mp hd
          injection e with e
          rcases ho with ⟨ho, h0⟩ | ho
          · rw [ho] at e; cases e
          · rw [ho] at e
            injection e with e
            subst e
            exact Or.inr ⟨_, mem_spawnedForwards_append hs.1, hn⟩
  unfold Core.sendShutdown
  split
  · rename_i h0
    unfold Core.send
    split
    · exact key _ (Or.inl ⟨rfl, h0⟩)
    · exact h
  · exact key _ (Or.inr rfl)

theorem sendShutdown_grows (c : Core) (env : Env) (p : Handle) : ∃ ys, (c.sendShutdown env p).log = c.log ++ ys := by
  unfold Core.sendShutdown
  split
  · unfold Core.send
    split
    · exact ⟨_, rfl⟩
    · exact ⟨[], (List.append_nil _).symm⟩
  · exact ⟨_, rfl⟩

theorem Known.stopsG (env : Env) : ∀ (l : List (Entity GroupCfg)) (c : Core), Known ga fa c →
    (∀ g ∈ l, ¬ ga g.configuration.alias ∧ (g.process.pid, g.configuration) ∈ spawnedGroups c.log ∧ (g.process.ipc ≠ 0 → Item.inp (.groupConnect g.process) ∈ c.log)) →
    Known ga fa (l.foldl (fun c g => c.sendShutdown env g.process) c)
  | [], _, h, _ => h
  | g :: gs, c, h, hl => by
    obtain ⟨h1, h2⟩ := hl g (List.mem_cons_self ..)
    refine Known.stopsG env gs _ (h.stopG env h1 h2) ?_
    intro x hx
    obtain ⟨k1, k2, k3⟩ := hl x (List.mem_cons_of_mem _ hx)
    obtain ⟨ys, e⟩ := sendShutdown_grows c env g.process
    rw [e]
    exact ⟨k1, mem_spawnedGroups_append k2, fun hi => mem_left (k3 hi)⟩

theorem Known.stopsF (env : Env) : ∀ (l : List (Entity FwdCfg)) (c : Core), Known ga fa c →
    (∀ g ∈ l, ¬ fa g.configuration.alias ∧ (g.process.pid, g.configuration) ∈ spawnedForwards c.log ∧ (g.process.ipc ≠ 0 → Item.inp (.forwardConnect g.process) ∈ c.log)) →
    Known ga fa (l.foldl (fun c g => c.sendShutdown env g.process) c)
  | [], _, h, _ => h
  | g :: gs, c, h, hl => by
    obtain ⟨h1, h2⟩ := hl g (List.mem_cons_self ..)
    refine Known.stopsF env gs _ (h.stopF env h1 h2) ?_
    intro x hx
    obtain ⟨k1, k2, k3⟩ := hl x (List.mem_cons_of_mem _ hx)
    obtain ⟨ys, e⟩ := sendShutdown_grows c env g.process
    rw [e]
    exact ⟨k1, mem_spawnedForwards_append k2, fun hi => mem_left (k3 hi)⟩

theorem Known.act (env : Env) (a : TAct) (b : TBody) (c : Core) (ha : ActOk ga fa a) (h : Known ga fa c) :
    Known ga fa (taskAct env a b c).1 := by
  cases a with
  | addGroups cfgs =>
    show Known ga fa (c.spawnGroups cfgs)
    unfold Core.spawnGroups
    refine Known.foldl _ ?_ cfgs c h
    intro c cfg h
    refine h.grow [.out (.spawnGroup c.nextPid cfg)] rfl (fun y hy => by rw [List.mem_singleton.mp hy]; trivial) ?_ (fun g hm => Or.inl ⟨g, hm, rfl, rfl⟩)
    intro g hm
    rcases List.mem_append.mp hm with hm | hm
    · exact Or.inl ⟨g, hm, rfl, rfl⟩
    · rw [List.mem_singleton.mp hm]
      refine Or.inr ⟨?_, fun hi => absurd rfl hi⟩
      show _ ∈ spawnedGroups (c.log ++ [Item.out (.spawnGroup c.nextPid cfg)])
      rw [spawnedGroups_append]
      exact List.mem_append.mpr (Or.inr (List.mem_singleton.mpr rfl))
  | addForwards cfgs =>
    show Known ga fa (c.spawnForwards cfgs)
    unfold Core.spawnForwards
    refine Known.foldl _ ?_ cfgs c h
    intro c cfg h
    refine h.grow [.out (.spawnForward c.nextPid cfg)] rfl (fun y hy => by rw [List.mem_singleton.mp hy]; trivial) (fun g hm => Or.inl ⟨g, hm, rfl, rfl⟩) ?_
    intro g hm
    rcases List.mem_append.mp hm with hm | hm
    · exact Or.inl ⟨g, hm, rfl, rfl⟩
    · rw [List.mem_singleton.mp hm]
      refine Or.inr ⟨?_, fun hi => absurd rfl hi⟩
      show _ ∈ spawnedForwards (c.log ++ [Item.out (.spawnForward c.nextPid cfg)])
      rw [spawnedForwards_append]
      exact List.mem_append.mpr (Or.inr (List.mem_singleton.mpr rfl))
  | rmGroups cfgs =>
    show Known ga fa (c.shutdownGroups env cfgs).1
    unfold Core.shutdownGroups
    dsimp only
    have h1 := Known.stopsG env (c.groups.filter fun g => cfgs.any fun x => x.alias == g.configuration.alias) c h (by
      intro g hm
      obtain ⟨hm, hh⟩ := List.mem_filter.mp hm
      obtain ⟨x, hx, e⟩ := List.any_eq_true.mp hh
      refine ⟨?_, h.groups g hm⟩
      rw [← eq_of_beq e]
      exact ha x hx)
    refine h1.same [] (by simp) (fun y hy => by cases hy) ?_ (fun g hm => ⟨g, hm, rfl, rfl⟩)
    intro g hm
    obtain ⟨g0, hm0, e⟩ := List.mem_map.mp hm
    refine ⟨g0, by rw [(foldl_sendShutdown_groups env _ c).1]; exact hm0, ?_⟩
    rw [← e]
    split <;> exact ⟨rfl, rfl⟩
  | rmForwards cfgs =>
    show Known ga fa (c.shutdownForwards env cfgs).1
    unfold Core.shutdownForwards
    dsimp only
    have h1 := Known.stopsF env (c.forwards.filter fun g => cfgs.any fun x => x.alias == g.configuration.alias) c h (by
      intro g hm
      obtain ⟨hm, hh⟩ := List.mem_filter.mp hm
      obtain ⟨x, hx, e⟩ := List.any_eq_true.mp hh
      refine ⟨?_, h.forwards g hm⟩
      rw [← eq_of_beq e]
      exact ha x hx)
    refine h1.same [] (by simp) (fun y hy => by cases hy) (fun g hm => ⟨g, hm, rfl, rfl⟩) ?_
    intro g hm
    obtain ⟨g0, hm0, e⟩ := List.mem_map.mp hm
    refine ⟨g0, by rw [(foldl_sendShutdown_groups env _ c).2]; exact hm0, ?_⟩
    rw [← e]
    split <;> exact ⟨rfl, rfl⟩
  | modGroups cfgs =>
    show Known ga fa (c.modifyGroups env cfgs).1
    unfold Core.modifyGroups
    have : ∀ (l : List GroupCfg) (r : Core × List Pid), Known ga fa r.1 → Known ga fa (l.foldl (fun r cfg =>
        match c.groups.find? (·.configuration.alias == cfg.alias) with
        | some g => (r.1.send env g.process.ipc (.groupUpdate g.process.ipc cfg), r.2 ++ [g.process.pid])
        | none => r) r).1 := by
      intro l
      induction l with
      | nil => exact fun r h => h
      | cons x xs ih =>
        intro r hr
        refine ih _ ?_
        dsimp only
        split
        · exact hr.send env _ _ trivial
        · exact hr
    exact this cfgs (c, []) h
  | modForwards cfgs =>
    show Known ga fa (c.modifyForwards env cfgs).1
    unfold Core.modifyForwards
    have : ∀ (l : List FwdCfg) (r : Core × List Pid), Known ga fa r.1 → Known ga fa (l.foldl (fun r cfg =>
        match c.groups.find? (·.configuration.alias == cfg.alias) with
        | some g => (r.1.send env g.process.ipc (.forwardUpdate g.process.ipc cfg none), r.2 ++ [g.process.pid])
        | none => r) r).1 := by
      intro l
      induction l with
      | nil => exact fun r h => h
      | cons x xs ih =>
        intro r hr
        refine ih _ ?_
        dsimp only
        split
        · exact hr.send env _ _ trivial
        · exact hr
    exact this cfgs (c, []) h
  | reply p k => exact h.send env _ _ trivial

theorem knownBound (env : Env) : Bound (taskOps env) (ActOk ga fa) (Known ga fa) where
  act := fun a b c ha h => Known.act env a b c ha h
  handle := fun b m f hf c h => by rw [taskHandle_fst (b := b) (m := m) hf c]; exact h

/-- The invariant. -/
def SInv (ga fa : Name → Prop) (s : State) : Prop := Known ga fa s.core ∧ ActsAre (ActOk ga fa) s.tasks.flatten

theorem SInv.taskMsg {s : State} (h : SInv ga fa s) (env : Env) (m : TMsg) : SInv ga fa (s.taskMsg env m) :=
  (knownBound env).coordMsg m s.tasks s.core h.2 h.1

theorem SInv.taskThen {s : State} (h : SInv ga fa s) (env : Env) (a : TAct) (k : TKind) (ha : ActOk ga fa a) : SInv ga fa (s.taskThen env a k) := by
  refine (knownBound env).coordThen _ s.tasks s.core ?_ h.2 h.1
  intro u hu x hx
  have : u = { id := ⟨s.seq, 0⟩, action := some a, body := { kind := k } } := by simpa [mkGroup] using hu
  rw [this] at hx
  injection hx with hx
  rw [← hx]
  exact ha

theorem SInv.thenIf {s : State} (h : SInv ga fa s) {α : Type} (env : Env) (l : List α) (a : List α → TAct) (k : TKind)
    (ha : ActOk ga fa (a l)) : SInv ga fa (s.thenIf env l a k) := by
  unfold State.thenIf
  split
  · exact h
  · exact h.taskThen env _ k ha

theorem calculate_removed {E : Type} [DecidableEq E] (alias : E → Name) (current wanted : List E) (p : Name → Prop)
    (hw : ∀ n, p n → ∃ x ∈ wanted, alias x = n) : ∀ x ∈ (calculate alias current wanted).removed, ¬ p (alias x) := by
  intro x hx hp
  obtain ⟨y, hy, e⟩ := hw _ hp
  have hx := (List.mem_filter.mp hx).2
  have : (wanted.any fun b => decide (alias x = alias b)) = true := List.any_eq_true.mpr ⟨y, hy, by simp [e]⟩
  rw [this] at hx
  cases hx

theorem SInv.conform {s : State} (h : SInv ga fa s) (env : Env) (current wanted : Model)
    (hg : ∀ n, ga n → ∃ x ∈ wanted.groups, x.alias = n) (hf : ∀ n, fa n → ∃ x ∈ wanted.forwards, x.alias = n) :
    SInv ga fa (s.conform env current wanted) := by
  unfold State.conform
  dsimp only
  refine SInv.thenIf (SInv.thenIf (SInv.thenIf (SInv.thenIf (SInv.thenIf (SInv.thenIf h env _ _ _ ?_) env _ _ _ ?_) env _ _ _ ?_) env _ _ _ ?_) env _ _ _ ?_) env _ _ _ ?_
  · exact calculate_removed _ _ _ fa hf
  · exact calculate_removed _ _ _ ga hg
  all_goals trivial

theorem SInv.core {s : State} (h : SInv ga fa s) {c : Core} (hc : Known ga fa c) : SInv ga fa { s with core := c } := ⟨hc, h.2⟩

theorem Known.groupConnect {c : Core} (h : Known ga fa c) (env : Env) (p : Handle) (hp : Item.inp (.groupConnect p) ∈ c.log) :
    Known ga fa (c.groupConnect env p) := by
  unfold Core.groupConnect
  split
  · refine Known.send ?_ env _ _ trivial
    refine h.grow [] (by simp) (fun y hy => by cases hy) ?_ (fun g hm => Or.inl ⟨g, hm, rfl, rfl⟩)
    intro g hm
    rcases mem_updateFirst hm with hm | ⟨y, hy, hpy, e⟩
    · exact Or.inl ⟨g, hm, rfl, rfl⟩
    · right
      subst e
      refine ⟨?_, fun _ => hp⟩
      have := (h.groups y hy).1
      rw [eq_of_beq hpy] at this
      exact this
  · exact h

theorem Known.forwardConnect {c : Core} (h : Known ga fa c) (env : Env) (p : Handle) (hp : Item.inp (.forwardConnect p) ∈ c.log) :
    Known ga fa (c.forwardConnect env p) := by
  unfold Core.forwardConnect
  split
  · refine Known.send ?_ env _ _ trivial
    refine h.grow [] (by simp) (fun y hy => by cases hy) (fun g hm => Or.inl ⟨g, hm, rfl, rfl⟩) ?_
    intro g hm
    rcases mem_updateFirst hm with hm | ⟨y, hy, hpy, e⟩
    · exact Or.inl ⟨g, hm, rfl, rfl⟩
    · right
      subst e
      refine ⟨?_, fun _ => hp⟩
      have := (h.forwards y hy).1
      rw [eq_of_beq hpy] at this
      exact this
  · exact h

theorem Known.remove {c : Core} (h : Known ga fa c) (pid : Pid) : Known ga fa (c.remove pid) :=
  h.same [] (by simp [Core.remove, Core.removeQueuesPid]) (fun y hy => by cases hy)
    (fun g hm => ⟨g, (List.mem_filter.mp hm).1, rfl, rfl⟩) (fun g hm => ⟨g, (List.mem_filter.mp hm).1, rfl, rfl⟩)

theorem Known.updateGroup {c : Core} (h : Known ga fa c) (p : Handle) (qs : List (Name × Int)) : Known ga fa (c.updateGroup p qs) := by
  unfold Core.updateGroup
  dsimp only
  split
  · exact h.iff rfl rfl rfl
  · refine h.same [] (by simp [Core.removeQueuesPid]) (fun y hy => by cases hy) ?_ (fun g hm => ⟨g, hm, rfl, rfl⟩)
    intro g hm
    rcases mem_updateFirst hm with hm | ⟨y, hy, _, e⟩
    · exact ⟨g, hm, rfl, rfl⟩
    · exact ⟨y, hy, by rw [e], by rw [e]⟩

theorem Known.updateAdvertise {c : Core} (h : Known ga fa c) (a : Advertise) : Known ga fa (c.updateAdvertise a) := by
  unfold Core.updateAdvertise
  split
  · exact h.iff rfl rfl rfl
  · split <;> exact h.iff rfl rfl rfl
  · exact h.iff rfl rfl rfl

theorem Known.terminates {α : Type} (pid : α → Pid) (hs : ∀ {c : Core} (x : α), Known ga fa c → (∃ cfg, (pid x, cfg) ∈ spawnedGroups c.log ∧ ¬ ga cfg.alias) ∨ (∃ cfg, (pid x, cfg) ∈ spawnedForwards c.log ∧ ¬ fa cfg.alias) →
    Known ga fa (c.emit (.terminate (pid x)))) : ∀ (l : List α) (c : Core), Known ga fa c →
    (∀ x ∈ l, (∃ cfg, (pid x, cfg) ∈ spawnedGroups c.log ∧ ¬ ga cfg.alias) ∨ (∃ cfg, (pid x, cfg) ∈ spawnedForwards c.log ∧ ¬ fa cfg.alias)) →
    Known ga fa (l.foldl (fun acc g => acc.emit (.terminate (pid g))) c)
  | [], _, h, _ => h
  | x :: xs, c, h, hl => by
    refine Known.terminates pid hs xs _ (hs x h (hl x (List.mem_cons_self ..))) ?_
    intro y hy
    rcases hl y (List.mem_cons_of_mem _ hy) with ⟨cfg, h1, h2⟩ | ⟨cfg, h1, h2⟩
    · exact Or.inl ⟨cfg, mem_spawnedGroups_append h1, h2⟩
    · exact Or.inr ⟨cfg, mem_spawnedForwards_append h1, h2⟩

theorem Known.terminate {c : Core} (h : Known ga fa c) (pid : Pid)
    (hp : (∃ cfg, (pid, cfg) ∈ spawnedGroups c.log ∧ ¬ ga cfg.alias) ∨ (∃ cfg, (pid, cfg) ∈ spawnedForwards c.log ∧ ¬ fa cfg.alias)) :
    Known ga fa (c.emit (.terminate pid)) := by
  rcases hp with ⟨cfg, h1, h2⟩ | ⟨cfg, h1, h2⟩
  · exact Known.stopG (g := { process := ⟨pid, 0⟩, configuration := cfg }) h ⟨fun _ => true⟩ h2 ⟨h1, fun hi => absurd rfl hi⟩
  · exact Known.stopF (g := { process := ⟨pid, 0⟩, configuration := cfg }) h ⟨fun _ => true⟩ h2 ⟨h1, fun hi => absurd rfl hi⟩

theorem step_sinv {s : State} (h : SInv ga fa s) (env : Env) (i : Input) (hi : StillWanted ga fa i) : SInv ga fa (s.step (env, i)) := by
  rw [step_eq]
  have mem : Item.inp i ∈ (s.core.logged i).log := List.mem_append.mpr (Or.inr (List.mem_singleton.mpr rfl))
  have hk : Known ga fa (s.core.logged i) :=
    h.1.same [.inp i] rfl (fun y hy => by rw [List.mem_singleton.mp hy]; trivial) (fun g hm => ⟨g, hm, rfl, rfl⟩) (fun g hm => ⟨g, hm, rfl, rfl⟩)
  have hl : SInv ga fa { s with core := s.core.logged i } := h.core hk
  have sub := fun m => (Grows.taskMsg { s with core := s.core.logged i } env m).mem _ mem
  cases i with
  | lookup l => exact hl.core (hk.lookupRequest env l)
  | discard k p => exact hl.core (hk.discardRequest env k p)
  | discoveryLookup k p scope names => exact hl.core (hk.send env _ _ trivial)
  | discoveryReply k => exact hl.core (hk.discoveryReply env k)
  | fetchKnown k p => exact hl.core (hk.send env _ _ trivial)
  | configRequest k p => exact hl.core (hk.send env _ _ trivial)
  | idle =>
    refine hl.core ?_
    show Known ga fa (Core.idle _)
    unfold Core.idle
    split
    · exact Known.emit (c := { s.core.logged .idle with runlevel := .running }) (hk.iff rfl rfl rfl) .ready trivial
    · exact hk
  | abort =>
    refine hl.core ?_
    show Known ga fa (Core.abort _ env)
    unfold Core.abort
    dsimp only
    have h1 : Known ga fa (({ s.core.logged .abort with runlevel := .error } : Core).discardAll env) := by
      have h' : Known ga fa ({ s.core.logged .abort with runlevel := .error } : Core) := hk.iff rfl rfl rfl
      exact h'.discardAll env
    generalize Core.discardAll _ env = c1 at h1
    refine Known.terminates (fun g : Entity GroupCfg => g.process.pid) (fun x h hp => h.terminate _ hp) _ _ ?_ ?_
    · exact Known.terminates (fun g : Entity FwdCfg => g.process.pid) (fun x h hp => h.terminate _ hp) _ _ h1
        (fun g hg => Or.inr ⟨_, (h1.forwards g hg).1, hi.2 _⟩)
    · have h2 := Known.terminates (fun g : Entity FwdCfg => g.process.pid) (fun x h hp => h.terminate _ hp) c1.forwards c1 h1
        (fun g hg => Or.inr ⟨_, (h1.forwards g hg).1, hi.2 _⟩)
      exact fun g hg => Or.inl ⟨_, (h2.groups g hg).1, hi.1 _⟩
  | configUpdate k p dg wanted =>
    exact (SInv.conform (s := { s with core := { s.core.logged (.configUpdate k p dg wanted) with domainGroups := dg } })
      (hl.core (hk.iff rfl rfl rfl)) env _ wanted hi.1 hi.2).taskThen env _ _ trivial
  | shutdown =>
    have h' : Known ga fa ({ s.core.logged .shutdown with runlevel := .shutdown } : Core) := hk.iff rfl rfl rfl
    exact SInv.conform (s := { s with core := ({ s.core.logged .shutdown with runlevel := .shutdown } : Core).discardAll env })
      (hl.core (h'.discardAll env)) env _ {} (fun n hn => absurd hn (hi.1 n)) (fun n hn => absurd hn (hi.2 n))
  | groupConnect p => exact (hl.taskMsg env _).core ((hl.taskMsg env _).1.groupConnect env p (sub _))
  | forwardConnect p => exact (hl.taskMsg env _).core ((hl.taskMsg env _).1.forwardConnect env p (sub _))
  | forwardReply p =>
    refine (hl.taskMsg env (.forwardReply p.pid)).core ?_
    refine (hl.taskMsg env (.forwardReply p.pid)).1.same [] (by simp [Core.forwardReply]) (fun y hy => by cases hy) (fun g hm => ⟨g, hm, rfl, rfl⟩) ?_
    intro g hm
    rcases mem_updateFirst hm with hm | ⟨y, hy, _, e⟩
    · exact ⟨g, hm, rfl, rfl⟩
    · exact ⟨y, hy, by rw [e], by rw [e]⟩
  | groupReply p qs => exact (hl.taskMsg env _).core (((hl.taskMsg env _).1.updateGroup p qs).check env)
  | advertise a => exact hl.core ((hk.updateAdvertise a).check env)
  | exitEvent pid => exact (hl.taskMsg env _).core ((hl.taskMsg env _).1.remove pid)
  | childExit pid => exact hl.core ((hk.emit (.exitEvent pid) trivial).remove pid)
  | ipcDestroyed ipc => exact hl.core (hk.iff rfl rfl rfl)

end

/-- C142.  As long as every update wants the queue groups `ga` and the forward groups `fa`, none of them is told to stop:
every shutdown request goes to, and every terminate signal is for, a child that was spawned with another alias.  A shutdown
request goes to the ipc that the child has connected with, which is never the null ipc. -/
theorem only_unwanted_told_to_stop (env : Env) (dg : Nat) (model : Model) (np : Pid) (xs : List (Env × Input)) (ga fa : Name → Prop)
    (hw : ∀ x ∈ xs, StillWanted ga fa x.2) : StopsRight ga fa (State.run env dg model np xs).core.log := by
  have h0 : SInv ga fa (State.init env dg model np) := by
    unfold State.init State.conform
    have hs : SInv ga fa ({ core := { domainGroups := dg, nextPid := np } } : State) :=
      ⟨⟨fun g hg => (by cases hg), fun g hg => (by cases hg), fun d hd => (by cases hd), fun d hd => (by cases hd)⟩, fun u hu => (by cases hu)⟩
    dsimp only
    refine SInv.thenIf (SInv.thenIf (SInv.thenIf (SInv.thenIf (SInv.thenIf (SInv.thenIf hs env _ _ _ ?_) env _ _ _ ?_) env _ _ _ ?_) env _ _ _ ?_) env _ _ _ ?_) env _ _ _ ?_
    · exact fun x hx => (by cases hx)
    · exact fun x hx => (by cases hx)
    all_goals trivial
  have key : ∀ (ys : List (Env × Input)) (s : State), SInv ga fa s → (∀ x ∈ ys, StillWanted ga fa x.2) → SInv ga fa (ys.foldl State.step s) := by
    intro ys
    induction ys with
    | nil => exact fun s h _ => h
    | cons y ys ih => exact fun s h hy => ih _ (step_sinv h y.1 y.2 (hy y (List.mem_cons_self ..))) (fun x hx => hy x (List.mem_cons_of_mem _ hx))
  exact (key xs _ h0 hw).1.stops

/-- The theorem is about something: of two groups that run, `a` is wanted still and `b` is not; `b`, and only `b`, is told. -/
example :
    let env : Env := ⟨fun _ => true⟩
    let xs : List (Env × Input) :=
      [(env, .groupConnect ⟨1, 11⟩), (env, .groupConnect ⟨2, 12⟩), (env, .configUpdate 7 ⟨9, 19⟩ 0 { groups := [{ alias := "a" }] })]
    let s := State.run env 0 { groups := [{ alias := "a" }, { alias := "b" }] } 1 xs
    (∀ x ∈ xs, StillWanted (· = "a") (fun _ => False) x.2) ∧ Item.out (.shutdownRequest 12) ∈ s.core.log ∧
      Item.out (.shutdownRequest 11) ∉ s.core.log := by
  refine ⟨?_, by decide +kernel, by decide +kernel⟩
  intro x hx
  rcases List.mem_cons.mp hx with h | hx
  · rw [h]; trivial
  · rcases List.mem_cons.mp hx with h | hx
    · rw [h]; trivial
    · rw [List.mem_singleton.mp hx]
      exact ⟨fun n hn => ⟨_, List.mem_singleton.mpr rfl, hn.symm⟩, fun n hn => absurd hn (fun h => h)⟩

end Casual.QManager
