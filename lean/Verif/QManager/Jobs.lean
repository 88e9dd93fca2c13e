import Verif.QManager.Life
import Verif.Task.Duty

/-! What the tasks of a configuration update have to see to: what is to be removed exits,
what is to be added is spawned and connects. -/
namespace Casual.QManager

open Casual.Task

/-- The queue groups keep their order, only those that have exited are removed. -/
def Kept (c c' : Core) : Prop :=
  ∃ (keep : Pid × GroupCfg → Bool) (new : List (Pid × GroupCfg)), c'.gs = c.gs.filter keep ++ new ∧
    ∀ q ∈ c.gs, keep q = false → exited c'.log q.1 = true

/-- Children are added, or removed when they have exited. -/
def Evolves (c c' : Core) : Prop :=
  (∃ ys, c'.log = c.log ++ ys) ∧ (∀ q ∈ c.gs, q ∈ c'.gs ∨ exited c'.log q.1 = true) ∧
    (∀ q ∈ c.fs, q ∈ c'.fs ∨ exited c'.log q.1 = true) ∧ Kept c c'

theorem Kept.append {c c' : Core} {new : List (Pid × GroupCfg)} (h : c'.gs = c.gs ++ new) : Kept c c' :=
  ⟨fun _ => true, new, by rw [h, filter_true' (fun _ _ => rfl)], fun _ _ h => by cases h⟩

theorem Evolves.refl (c : Core) : Evolves c c := ⟨⟨[], by simp⟩, fun _ h => Or.inl h, fun _ h => Or.inl h, Kept.append (new := []) (by simp)⟩

theorem exited_mono {a ys : List Item} {q : Pid} (h : exited a q = true) : exited (a ++ ys) q = true := by
  rw [exited_append, h]; rfl

theorem Evolves.trans {a b c : Core} (h1 : Evolves a b) (h2 : Evolves b c) : Evolves a c := by
  obtain ⟨⟨y1, l1⟩, g1, f1, k1, n1, e1, x1⟩ := h1
  obtain ⟨⟨y2, l2⟩, g2, f2, k2, n2, e2, x2⟩ := h2
  refine ⟨⟨y1 ++ y2, by rw [l2, l1, List.append_assoc]⟩, ?_, ?_, ?_⟩
  rotate_left 2
  · refine ⟨fun q => k2 q && k1 q, n1.filter k2 ++ n2, ?_, ?_⟩
    · rw [e2, e1, List.filter_append, List.filter_filter, List.append_assoc]
    · intro q hq hk
      cases h : k1 q with
      | false => rw [l2]; exact exited_mono (x1 q hq h)
      | true =>
        dsimp only at hk
        rw [h, Bool.and_true] at hk
        exact x2 q (by rw [e1]; exact List.mem_append.mpr (Or.inl (List.mem_filter.mpr ⟨hq, h⟩))) hk
  · intro q hq
    rcases g1 q hq with h | h
    · exact g2 q h
    · exact Or.inr (by rw [l2]; exact exited_mono h)
  · intro q hq
    rcases f1 q hq with h | h
    · exact f2 q h
    · exact Or.inr (by rw [l2]; exact exited_mono h)

theorem Evolves.of_grows {c c' : Core} (h : Grows c c') : Evolves c c' := by
  obtain ⟨os, hl, hg, hf⟩ := h
  refine ⟨⟨_, hl⟩, ?_, ?_, Kept.append hg⟩
  · intro q hq
    rw [hg]
    exact Or.inl (List.mem_append.mpr (Or.inl hq))
  · intro q hq
    rw [hf]
    exact Or.inl (List.mem_append.mpr (Or.inl hq))

theorem Evolves.logged (c : Core) (i : Input) : Evolves c (c.logged i) :=
  ⟨⟨[.inp i], rfl⟩, fun _ h => Or.inl h, fun _ h => Or.inl h, Kept.append (new := []) (by rw [List.append_nil]; rfl)⟩

theorem Evolves.remove (c : Core) (pid : Pid) (h : exited c.log pid = true) : Evolves c (c.remove pid) := by
  obtain ⟨r1, r2, r3⟩ := gs_remove c pid
  refine ⟨⟨[], by rw [r3, List.append_nil]⟩, ?_, ?_, ⟨fun p => !(p.1 == pid), [], by rw [r1, List.append_nil], ?_⟩⟩
  rotate_left 2
  · intro q _ hk
    have he : q.1 = pid := by simpa using hk
    rw [r3, he]
    exact h
  · intro q hq
    by_cases he : q.1 = pid
    · rw [r3, he]; exact Or.inr h
    · rw [r1, List.mem_filter]
      exact Or.inl ⟨hq, by simpa using he⟩
  · intro q hq
    by_cases he : q.1 = pid
    · rw [r3, he]; exact Or.inr h
    · rw [r2, List.mem_filter]
      exact Or.inl ⟨hq, by simpa using he⟩

theorem evolvesKeeps (env : Env) : Keeps (taskOps env) Evolves where
  refl := Evolves.refl
  trans := Evolves.trans
  act := fun a b c => Evolves.of_grows (Grows.act env a b c)
  handle := fun b m h hh c => by
    rw [taskHandle_fst (b := b) (m := m) hh c]
    exact Evolves.refl c

/-- Something the tasks have to see to. -/
inductive Job where
  /-- the queue group with this pid, and alias, exits -/
  | rmGroup (pid : Pid) (cfg : GroupCfg)
  | rmForward (pid : Pid) (cfg : FwdCfg)
  /-- a queue group is spawned for this configuration, after the first `n` items of the log, and connects or exits -/
  | addGroup (n : Nat) (cfg : GroupCfg)
  | addForward (n : Nat) (cfg : FwdCfg)
  /-- the queue group with this pid, the first with its alias, answers a configuration after the first `n`
  items of the log, or exits -/
  | modGroup (n : Nat) (pid : Pid) (alias : Name)

/-- A message from the process that it connects. -/
def connectedG (log : List Item) (pid : Pid) : Prop := ∃ h : Handle, h.pid = pid ∧ Item.inp (.groupConnect h) ∈ log

def connectedF (log : List Item) (pid : Pid) : Prop := ∃ h : Handle, h.pid = pid ∧ Item.inp (.forwardConnect h) ∈ log

/-- It is done. -/
def Job.Met (c : Core) : Job → Prop
  | .rmGroup pid _ => exited c.log pid = true
  | .rmForward pid _ => exited c.log pid = true
  | .addGroup n cfg => n ≤ c.log.length ∧ ∃ pid, (pid, cfg) ∈ spawnedGroups (c.log.drop n) ∧ (connectedG c.log pid ∨ exited c.log pid = true)
  | .addForward n cfg => n ≤ c.log.length ∧ ∃ pid, (pid, cfg) ∈ spawnedForwards (c.log.drop n) ∧ (connectedF c.log pid ∨ exited c.log pid = true)
  | .modGroup n pid _ => n ≤ c.log.length ∧ (exited c.log pid = true ∨ ∃ h qs, h.pid = pid ∧ Item.inp (.groupReply h qs) ∈ c.log.drop n)

/-- A unit that is not started will do it. -/
def Job.Waits (c : Core) (u : QUnit) : Job → Prop
  | .rmGroup pid cfg => u.body.kind = .exitOnly ∧ (pid, cfg) ∈ c.gs ∧ ∃ cfgs, u.action = some (.rmGroups cfgs) ∧ ∃ x ∈ cfgs, x.alias = cfg.alias
  | .rmForward pid cfg => u.body.kind = .exitOnly ∧ (pid, cfg) ∈ c.fs ∧ ∃ cfgs, u.action = some (.rmForwards cfgs) ∧ ∃ x ∈ cfgs, x.alias = cfg.alias
  | .addGroup n cfg => n ≤ c.log.length ∧ u.body.kind = .groupConnect ∧ ∃ cfgs, u.action = some (.addGroups cfgs) ∧ cfg ∈ cfgs
  | .addForward n cfg => n ≤ c.log.length ∧ u.body.kind = .forwardConnect ∧ ∃ cfgs, u.action = some (.addForwards cfgs) ∧ cfg ∈ cfgs
  | .modGroup n pid alias => n ≤ c.log.length ∧ u.body.kind = .groupReply ∧ (∃ q, c.gs.find? (·.2.alias == alias) = some q ∧ q.1 = pid) ∧
      ∃ cfgs, u.action = some (.modGroups cfgs) ∧ ∃ x ∈ cfgs, x.alias = alias

/-- A unit that is started waits for it. -/
def Job.Runs (c : Core) (u : QUnit) : Job → Prop
  | .rmGroup pid _ => u.body.kind = .exitOnly ∧ pid ∈ u.body.pids
  | .rmForward pid _ => u.body.kind = .exitOnly ∧ pid ∈ u.body.pids
  | .addGroup n cfg => n ≤ c.log.length ∧ u.body.kind = .groupConnect ∧ ∃ pid ∈ u.body.pids, (pid, cfg) ∈ spawnedGroups (c.log.drop n)
  | .addForward n cfg => n ≤ c.log.length ∧ u.body.kind = .forwardConnect ∧ ∃ pid ∈ u.body.pids, (pid, cfg) ∈ spawnedForwards (c.log.drop n)
  | .modGroup n pid _ => n ≤ c.log.length ∧ u.body.kind = .groupReply ∧ pid ∈ u.body.pids

/-- The process that a message to the tasks is about. -/
def TMsg.pid : TMsg → Pid
  | .groupConnect p | .forwardConnect p | .groupReply p | .forwardReply p | .exit p => p

/-- The message has been received. -/
def MsgLogged (j : Job) (m : TMsg) (c : Core) : Prop :=
  match m with
  | .exit p => exited c.log p = true
  | .groupConnect p => connectedG c.log p
  | .forwardConnect p => connectedF c.log p
  | .groupReply p => ∀ n pid alias, j = .modGroup n pid alias → ∃ h qs, h.pid = p ∧ Item.inp (.groupReply h qs) ∈ c.log.drop n
  | _ => True

theorem outcomeOf_abort {l : List Pid} (h : outcomeOf l = .abort) : l = [] := by
  unfold outcomeOf at h
  split at h
  · rename_i he; exact List.isEmpty_iff.mp he
  · cases h

/-- The messages that a unit of this kind waits for. -/
def TKind.accepts : TKind → TMsg → Bool
  | .none, _ => false
  | _, .exit _ => true
  | .groupConnect, .groupConnect _ => true
  | .forwardConnect, .forwardConnect _ => true
  | .groupReply, .groupReply _ => true
  | .forwardReply, .forwardReply _ => true
  | _, _ => false

theorem taskHandle_eq (b : TBody) (m : TMsg) :
    taskHandle b m = if b.kind.accepts m then some (pidDone b m.pid) else none := by
  unfold taskHandle TKind.accepts
  cases b.kind <;> cases m <;> rfl

/-- A unit that waits for a process still does after a message, unless the message is the
one that it waits for. -/
theorem unitMsg_waits (env : Env) (m : TMsg) (u : QUnit) (c : Core) {pid : Pid} (h : pid ∈ u.body.pids) :
    (unitMsg (taskOps env) m u c).1 = c ∧ (unitMsg (taskOps env) m u c).2.1.body.kind = u.body.kind ∧
    ((u.body.kind.accepts m = true ∧ m.pid = pid) ∨
      ((unitMsg (taskOps env) m u c).2.2 = .pending ∧ pid ∈ (unitMsg (taskOps env) m u c).2.1.body.pids)) := by
  unfold unitMsg
  have he : (taskOps env).handle u.body m = if u.body.kind.accepts m then some (pidDone u.body m.pid) else none := taskHandle_eq _ _
  rw [he]
  by_cases ha : u.body.kind.accepts m = true
  · rw [if_pos ha]
    refine ⟨rfl, rfl, ?_⟩
    by_cases hp : m.pid = pid
    · exact Or.inl ⟨ha, hp⟩
    · right
      have hm : pid ∈ u.body.pids.filter fun p => !(p == m.pid) := by
        rw [List.mem_filter]
        refine ⟨h, ?_⟩
        have : ¬ pid = m.pid := fun e => hp e.symm
        simpa using this
      refine ⟨?_, hm⟩
      show (if (u.body.pids.filter fun p => !(p == m.pid)).isEmpty then Dispatch.done else .pending) = _
      rw [if_neg]
      intro hn
      rw [List.isEmpty_iff.mp hn] at hm
      cases hm
  · rw [if_neg ha]
    exact ⟨rfl, rfl, Or.inr ⟨rfl, h⟩⟩

theorem mem_spawned_mono {c c' : Core} (h : Evolves c c') :
    (∀ q ∈ spawnedGroups c.log, q ∈ spawnedGroups c'.log) ∧ (∀ q ∈ spawnedForwards c.log, q ∈ spawnedForwards c'.log) ∧
    (∀ x ∈ c.log, x ∈ c'.log) ∧ ∀ p, exited c.log p = true → exited c'.log p = true := by
  obtain ⟨⟨ys, hl⟩, _⟩ := h
  rw [hl]
  refine ⟨?_, ?_, fun x hx => List.mem_append.mpr (Or.inl hx), fun p hp => exited_mono hp⟩
  · intro q hq; rw [spawnedGroups_append]; exact List.mem_append.mpr (Or.inl hq)
  · intro q hq; rw [spawnedForwards_append]; exact List.mem_append.mpr (Or.inl hq)

/-- Nothing is lost after the first `n` items either. -/
theorem mem_spawned_drop {c c' : Core} (h : Evolves c c') {n : Nat} (hn : n ≤ c.log.length) :
    n ≤ c'.log.length ∧ (∀ q ∈ spawnedGroups (c.log.drop n), q ∈ spawnedGroups (c'.log.drop n)) ∧
    ∀ q ∈ spawnedForwards (c.log.drop n), q ∈ spawnedForwards (c'.log.drop n) := by
  obtain ⟨⟨ys, hl⟩, _⟩ := h
  rw [hl, List.length_append, List.drop_append_of_le_length hn, spawnedGroups_append, spawnedForwards_append]
  exact ⟨by omega, fun q hq => List.mem_append.mpr (Or.inl hq), fun q hq => List.mem_append.mpr (Or.inl hq)⟩

theorem Job.met_mono {c c' : Core} (h : Evolves c c') {j : Job} (hm : j.Met c) : j.Met c' := by
  obtain ⟨h1, h2, h3, h4⟩ := mem_spawned_mono h
  cases j with
  | rmGroup pid cfg => exact h4 pid hm
  | rmForward pid cfg => exact h4 pid hm
  | addGroup n cfg =>
    obtain ⟨hn, pid, hp, hm⟩ := hm
    have hd := mem_spawned_drop h hn
    exact ⟨hd.1, pid, hd.2.1 _ hp, hm.imp (fun ⟨h, e, hh⟩ => ⟨h, e, h3 _ hh⟩) (h4 pid)⟩
  | addForward n cfg =>
    obtain ⟨hn, pid, hp, hm⟩ := hm
    have hd := mem_spawned_drop h hn
    exact ⟨hd.1, pid, hd.2.2 _ hp, hm.imp (fun ⟨h, e, hh⟩ => ⟨h, e, h3 _ hh⟩) (h4 pid)⟩
  | modGroup n pid alias =>
    obtain ⟨ys, hl⟩ := h.1
    obtain ⟨hn, hm⟩ := hm
    refine ⟨by rw [hl, List.length_append]; omega, hm.imp (h4 pid) ?_⟩
    rintro ⟨x, qs, e, hx⟩
    exact ⟨x, qs, e, by rw [hl, List.drop_append_of_le_length hn]; exact List.mem_append.mpr (Or.inl hx)⟩

theorem Job.waits_mono {c c' : Core} (h : Evolves c c') {u : QUnit} {j : Job} (hw : j.Waits c u) : j.Waits c' u ∨ j.Met c' := by
  cases j with
  | rmGroup pid cfg =>
    obtain ⟨hk, hg, hx⟩ := hw
    exact (h.2.1 _ hg).imp (fun hg => ⟨hk, hg, hx⟩) id
  | rmForward pid cfg =>
    obtain ⟨hk, hg, hx⟩ := hw
    exact (h.2.2.1 _ hg).imp (fun hg => ⟨hk, hg, hx⟩) id
  | addGroup n cfg => exact Or.inl ⟨(mem_spawned_drop h hw.1).1, hw.2⟩
  | addForward n cfg => exact Or.inl ⟨(mem_spawned_drop h hw.1).1, hw.2⟩
  | modGroup n pid alias =>
    obtain ⟨ys, hl⟩ := h.1
    obtain ⟨hn, hk, ⟨q, hq, rfl⟩, hx⟩ := hw
    obtain ⟨keep, new, e, hx'⟩ := h.2.2.2
    have hn' : n ≤ c'.log.length := by rw [hl, List.length_append]; omega
    cases hkq : keep q with
    | false => exact Or.inr ⟨hn', Or.inl (hx' q (List.mem_of_find?_eq_some hq) hkq)⟩
    | true =>
      refine Or.inl ⟨hn', hk, ⟨q, ?_, rfl⟩, hx⟩
      rw [e, List.find?_append]
      have : ∀ l : List (Pid × GroupCfg), l.find? (·.2.alias == alias) = some q → (l.filter keep).find? (·.2.alias == alias) = some q := by
        intro l
        induction l with
        | nil => intro h; cases h
        | cons x xs ih =>
          intro h
          rw [List.find?_cons] at h
          split at h
          · rename_i hp
            injection h with h
            subst h
            rw [List.filter_cons, if_pos hkq, List.find?_cons, hp]
          · rename_i hp
            rw [List.filter_cons]
            split
            · rw [List.find?_cons, hp]; exact ih h
            · exact ih h
      rw [this _ hq]
      rfl

theorem Job.runs_mono {c c' : Core} (h : Evolves c c') {u : QUnit} {j : Job} (hw : j.Runs c u) : j.Runs c' u := by
  obtain ⟨h1, h2, h3, h4⟩ := mem_spawned_mono h
  cases j with
  | rmGroup pid cfg => exact hw
  | rmForward pid cfg => exact hw
  | addGroup n cfg =>
    obtain ⟨hn, hk, pid, hp, hs⟩ := hw
    have hd := mem_spawned_drop h hn
    exact ⟨hd.1, hk, pid, hp, hd.2.1 _ hs⟩
  | addForward n cfg =>
    obtain ⟨hn, hk, pid, hp, hs⟩ := hw
    have hd := mem_spawned_drop h hn
    exact ⟨hd.1, hk, pid, hp, hd.2.2 _ hs⟩
  | modGroup n pid alias =>
    obtain ⟨ys, hl⟩ := h.1
    exact ⟨by rw [hl, List.length_append]; have := hw.1; omega, hw.2⟩

/-- The groups that are modified are waited for. -/
theorem modifyGroups_mem (env : Env) (c : Core) (g : Entity GroupCfg) : ∀ (cfgs : List GroupCfg) (r : Core × List Pid),
    (g.process.pid ∈ r.2 ∨ ∃ x ∈ cfgs, c.groups.find? (·.configuration.alias == x.alias) = some g) →
    g.process.pid ∈ (cfgs.foldl (fun r cfg =>
      match c.groups.find? (·.configuration.alias == cfg.alias) with
      | some g => (r.1.send env g.process.ipc (.groupUpdate g.process.ipc cfg), r.2 ++ [g.process.pid])
      | none => r) r).2
  | [], r, h => by
    rcases h with h | ⟨x, hx, _⟩
    · exact h
    · cases hx
  | y :: ys, r, h => by
    refine modifyGroups_mem env c g ys _ ?_
    rcases h with h | ⟨x, hx, hf⟩
    · left
      dsimp only
      split
      · exact List.mem_append.mpr (Or.inl h)
      · exact h
    · rcases List.mem_cons.mp hx with rfl | hx
      · left
        dsimp only
        rw [hf]
        exact List.mem_append.mpr (Or.inr (List.mem_singleton.mpr rfl))
      · exact Or.inr ⟨x, hx, hf⟩

/-- Every group of a spawn action is spawned, with one of the pids. -/
theorem spawnGroups_mem : ∀ (cfgs : List GroupCfg) (c : Core) (cfg : GroupCfg), cfg ∈ cfgs →
    ∃ k ys, k < cfgs.length ∧ (c.spawnGroups cfgs).log = c.log ++ ys ∧ (c.nextPid + k, cfg) ∈ spawnedGroups ys
  | [], _, _, h => by cases h
  | x :: xs, c, cfg, h => by
    let c1 : Core := { c.emit (.spawnGroup c.nextPid x) with
      groups := c.groups ++ [{ state := .spawned, process := ⟨c.nextPid, 0⟩, configuration := x }], nextPid := c.nextPid + 1 }
    have e : c.spawnGroups (x :: xs) = c1.spawnGroups xs := rfl
    rw [e]
    rcases List.mem_cons.mp h with rfl | h
    · have hg : Evolves c1 (c1.spawnGroups xs) := Evolves.of_grows (Grows.act ⟨fun _ => true⟩ (.addGroups xs) { kind := .none } c1)
      obtain ⟨ys, hy⟩ := hg.1
      refine ⟨0, .out (.spawnGroup c.nextPid cfg) :: ys, by simp, ?_, ?_⟩
      · rw [hy]
        show (c.log ++ [_]) ++ ys = _
        rw [List.append_assoc]; rfl
      · exact List.mem_cons_self
    · obtain ⟨k, ys, hk, hy, hm⟩ := spawnGroups_mem xs c1 cfg h
      refine ⟨k + 1, .out (.spawnGroup c.nextPid x) :: ys, by simp; omega, ?_, ?_⟩
      · rw [hy]
        show (c.log ++ [_]) ++ ys = _
        rw [List.append_assoc]; rfl
      have : c1.nextPid + k = c.nextPid + (k + 1) := by show c.nextPid + 1 + k = _; rw [Nat.add_assoc, Nat.add_comm 1 k]
      rw [this] at hm
      exact List.mem_cons_of_mem _ hm

theorem spawnForwards_mem : ∀ (cfgs : List FwdCfg) (c : Core) (cfg : FwdCfg), cfg ∈ cfgs →
    ∃ k ys, k < cfgs.length ∧ (c.spawnForwards cfgs).log = c.log ++ ys ∧ (c.nextPid + k, cfg) ∈ spawnedForwards ys
  | [], _, _, h => by cases h
  | x :: xs, c, cfg, h => by
    let c1 : Core := { c.emit (.spawnForward c.nextPid x) with
      forwards := c.forwards ++ [{ state := .spawned, process := ⟨c.nextPid, 0⟩, configuration := x }], nextPid := c.nextPid + 1 }
    have e : c.spawnForwards (x :: xs) = c1.spawnForwards xs := rfl
    rw [e]
    rcases List.mem_cons.mp h with rfl | h
    · have hg : Evolves c1 (c1.spawnForwards xs) := Evolves.of_grows (Grows.act ⟨fun _ => true⟩ (.addForwards xs) { kind := .none } c1)
      obtain ⟨ys, hy⟩ := hg.1
      refine ⟨0, .out (.spawnForward c.nextPid cfg) :: ys, by simp, ?_, ?_⟩
      · rw [hy]
        show (c.log ++ [_]) ++ ys = _
        rw [List.append_assoc]; rfl
      · exact List.mem_cons_self
    · obtain ⟨k, ys, hk, hy, hm⟩ := spawnForwards_mem xs c1 cfg h
      refine ⟨k + 1, .out (.spawnForward c.nextPid x) :: ys, by simp; omega, ?_, ?_⟩
      · rw [hy]
        show (c.log ++ [_]) ++ ys = _
        rw [List.append_assoc]; rfl
      have : c1.nextPid + k = c.nextPid + (k + 1) := by show c.nextPid + 1 + k = _; rw [Nat.add_assoc, Nat.add_comm 1 k]
      rw [this] at hm
      exact List.mem_cons_of_mem _ hm

/-- What starting a unit that has the job does. -/
theorem Job.started (env : Env) {c : Core} {u : QUnit} {j : Job} (h : j.Waits c u) :
    j.Runs (unitStart (taskOps env) u c).1 (unitStart (taskOps env) u c).2.1 ∧ (unitStart (taskOps env) u c).2.2 = .success := by
  cases j with
  | rmGroup pid cfg =>
    obtain ⟨hk, hg, cfgs, ha, x, hx, he⟩ := h
    obtain ⟨g, hg, e⟩ := List.mem_map.mp hg
    unfold unitStart
    rw [ha]
    have hm : pid ∈ (c.shutdownGroups env cfgs).2 := by
      unfold Core.shutdownGroups
      dsimp only
      refine List.mem_map.mpr ⟨g, List.mem_filter.mpr ⟨hg, ?_⟩, congrArg Prod.fst e⟩
      rw [List.any_eq_true]
      refine ⟨x, hx, ?_⟩
      have : g.configuration = cfg := congrArg Prod.snd e
      rw [this]
      simpa using he
    refine ⟨⟨hk, hm⟩, ?_⟩
    show outcomeOf (c.shutdownGroups env cfgs).2 = .success
    unfold outcomeOf
    rw [if_neg]
    intro hn
    rw [List.isEmpty_iff.mp hn] at hm
    cases hm
  | rmForward pid cfg =>
    obtain ⟨hk, hg, cfgs, ha, x, hx, he⟩ := h
    obtain ⟨g, hg, e⟩ := List.mem_map.mp hg
    unfold unitStart
    rw [ha]
    have hm : pid ∈ (c.shutdownForwards env cfgs).2 := by
      unfold Core.shutdownForwards
      dsimp only
      refine List.mem_map.mpr ⟨g, List.mem_filter.mpr ⟨hg, ?_⟩, congrArg Prod.fst e⟩
      rw [List.any_eq_true]
      refine ⟨x, hx, ?_⟩
      have : g.configuration = cfg := congrArg Prod.snd e
      rw [this]
      simpa using he
    refine ⟨⟨hk, hm⟩, ?_⟩
    show outcomeOf (c.shutdownForwards env cfgs).2 = .success
    unfold outcomeOf
    rw [if_neg]
    intro hn
    rw [List.isEmpty_iff.mp hn] at hm
    cases hm
  | addGroup n cfg =>
    obtain ⟨hn, hk, cfgs, ha, hc⟩ := h
    unfold unitStart
    rw [ha]
    obtain ⟨k, ys, hkl, hy, hm⟩ := spawnGroups_mem cfgs c cfg hc
    have hl : n ≤ (c.spawnGroups cfgs).log.length := by rw [hy, List.length_append]; omega
    have hm : (c.nextPid + k, cfg) ∈ spawnedGroups ((c.spawnGroups cfgs).log.drop n) := by
      rw [hy, List.drop_append_of_le_length hn, spawnedGroups_append]
      exact List.mem_append.mpr (Or.inr hm)
    have hp : c.nextPid + k ∈ (List.range cfgs.length).map (c.nextPid + ·) := List.mem_map.mpr ⟨k, List.mem_range.mpr hkl, rfl⟩
    refine ⟨⟨hl, hk, _, hp, hm⟩, ?_⟩
    show outcomeOf _ = .success
    unfold outcomeOf
    rw [if_neg]
    intro hn
    rw [List.isEmpty_iff.mp hn] at hp
    cases hp
  | addForward n cfg =>
    obtain ⟨hn, hk, cfgs, ha, hc⟩ := h
    unfold unitStart
    rw [ha]
    obtain ⟨k, ys, hkl, hy, hm⟩ := spawnForwards_mem cfgs c cfg hc
    have hl : n ≤ (c.spawnForwards cfgs).log.length := by rw [hy, List.length_append]; omega
    have hm : (c.nextPid + k, cfg) ∈ spawnedForwards ((c.spawnForwards cfgs).log.drop n) := by
      rw [hy, List.drop_append_of_le_length hn, spawnedForwards_append]
      exact List.mem_append.mpr (Or.inr hm)
    have hp : c.nextPid + k ∈ (List.range cfgs.length).map (c.nextPid + ·) := List.mem_map.mpr ⟨k, List.mem_range.mpr hkl, rfl⟩
    refine ⟨⟨hl, hk, _, hp, hm⟩, ?_⟩
    show outcomeOf _ = .success
    unfold outcomeOf
    rw [if_neg]
    intro hn
    rw [List.isEmpty_iff.mp hn] at hp
    cases hp
  | modGroup n pid alias =>
    have hev : Evolves c (unitStart (taskOps env) u c).1 := (evolvesKeeps env).unitStart u c
    obtain ⟨hn, hk, ⟨q, hq, rfl⟩, cfgs, ha, x, hx, rfl⟩ := h
    have hf : ∃ g, c.groups.find? (·.configuration.alias == x.alias) = some g ∧ g.process.pid = q.1 := by
      unfold Core.gs at hq
      rw [List.find?_map] at hq
      obtain ⟨g, hg, rfl⟩ := Option.map_eq_some_iff.mp hq
      exact ⟨g, hg, rfl⟩
    obtain ⟨g, hg, e⟩ := hf
    have hm : q.1 ∈ u.body.pids ++ (c.modifyGroups env cfgs).2 := by
      rw [← e]
      exact List.mem_append.mpr (Or.inr (modifyGroups_mem env c g cfgs (c, []) (Or.inr ⟨x, hx, hg⟩)))
    have hlen : n ≤ (unitStart (taskOps env) u c).1.log.length := by
      obtain ⟨ys, hl⟩ := hev.1
      rw [hl, List.length_append]
      omega
    refine ⟨⟨hlen, ?_, ?_⟩, ?_⟩
    · unfold unitStart
      rw [ha]
      exact hk
    · unfold unitStart
      rw [ha]
      exact hm
    · unfold unitStart
      rw [ha]
      show outcomeOf (u.body.pids ++ (c.modifyGroups env cfgs).2) = .success
      unfold outcomeOf
      rw [if_neg]
      intro hn
      rw [List.isEmpty_iff.mp hn] at hm
      cases hm

/-- A message, to a unit that waits for the job. -/
theorem Job.messaged (env : Env) (m : TMsg) {c : Core} {j : Job} (hk : MsgLogged j m c) {u : QUnit} (h : j.Runs c u) :
    (unitMsg (taskOps env) m u c).1 = c ∧
    (j.Met c ∨ ((unitMsg (taskOps env) m u c).2.2 = .pending ∧ j.Runs c (unitMsg (taskOps env) m u c).2.1)) := by
  cases j with
  | rmGroup pid cfg =>
    obtain ⟨hkd, hp⟩ := h
    obtain ⟨e1, e2, e3⟩ := unitMsg_waits env m u c hp
    refine ⟨e1, ?_⟩
    rcases e3 with ⟨ha, rfl⟩ | ⟨e4, e5⟩
    · rw [hkd] at ha
      cases m with
      | exit p => exact Or.inl hk
      | _ => cases ha
    · exact Or.inr ⟨e4, e2.trans hkd, e5⟩
  | rmForward pid cfg =>
    obtain ⟨hkd, hp⟩ := h
    obtain ⟨e1, e2, e3⟩ := unitMsg_waits env m u c hp
    refine ⟨e1, ?_⟩
    rcases e3 with ⟨ha, rfl⟩ | ⟨e4, e5⟩
    · rw [hkd] at ha
      cases m with
      | exit p => exact Or.inl hk
      | _ => cases ha
    · exact Or.inr ⟨e4, e2.trans hkd, e5⟩
  | addGroup n cfg =>
    obtain ⟨hn, hkd, pid, hp, hs⟩ := h
    obtain ⟨e1, e2, e3⟩ := unitMsg_waits env m u c hp
    refine ⟨e1, ?_⟩
    rcases e3 with ⟨ha, rfl⟩ | ⟨e4, e5⟩
    · rw [hkd] at ha
      cases m with
      | exit p => exact Or.inl ⟨hn, p, hs, Or.inr hk⟩
      | groupConnect p => exact Or.inl ⟨hn, p, hs, Or.inl hk⟩
      | _ => cases ha
    · exact Or.inr ⟨e4, hn, e2.trans hkd, pid, e5, hs⟩
  | addForward n cfg =>
    obtain ⟨hn, hkd, pid, hp, hs⟩ := h
    obtain ⟨e1, e2, e3⟩ := unitMsg_waits env m u c hp
    refine ⟨e1, ?_⟩
    rcases e3 with ⟨ha, rfl⟩ | ⟨e4, e5⟩
    · rw [hkd] at ha
      cases m with
      | exit p => exact Or.inl ⟨hn, p, hs, Or.inr hk⟩
      | forwardConnect p => exact Or.inl ⟨hn, p, hs, Or.inl hk⟩
      | _ => cases ha
    · exact Or.inr ⟨e4, hn, e2.trans hkd, pid, e5, hs⟩
  | modGroup n pid alias =>
    obtain ⟨hn, hkd, hp⟩ := h
    obtain ⟨e1, e2, e3⟩ := unitMsg_waits env m u c hp
    refine ⟨e1, ?_⟩
    rcases e3 with ⟨ha, rfl⟩ | ⟨e4, e5⟩
    · rw [hkd] at ha
      cases m with
      | exit p => exact Or.inl ⟨hn, Or.inl hk⟩
      | groupReply p => exact Or.inl ⟨hn, Or.inr (hk _ _ _ rfl)⟩
      | _ => cases ha
    · exact Or.inr ⟨e4, hn, e2.trans hkd, e5⟩

theorem jobDuty (env : Env) (j : Job) :
    DutyOf (taskOps env) Evolves (fun c u => j.Waits c u) (fun c u => j.Runs c u) (fun c => j.Met c) where
  keeps := evolvesKeeps env
  met := fun h hm => Job.met_mono h hm
  frameW := fun h hw => Job.waits_mono h hw
  frameR := fun h hw => Or.inl (Job.runs_mono h hw)
  start := fun h _ => Or.inl (Job.started env h).1
  startAbort := fun h he => by rw [(Job.started env h).2] at he; cases he

theorem MsgLogged.mono {j : Job} {m : TMsg} {c c' : Core} (h : Evolves c c') (hm : MsgLogged j m c) : MsgLogged j m c' := by
  obtain ⟨h1, h2, h3, h4⟩ := mem_spawned_mono h
  cases m with
  | exit p => exact h4 p hm
  | groupConnect p => obtain ⟨x, e, hx⟩ := hm; exact ⟨x, e, h3 _ hx⟩
  | forwardConnect p => obtain ⟨x, e, hx⟩ := hm; exact ⟨x, e, h3 _ hx⟩
  | groupReply p =>
    obtain ⟨ys, hl⟩ := h.1
    intro n pid alias e
    obtain ⟨x, qs, e', hx⟩ := hm n pid alias e
    refine ⟨x, qs, e', ?_⟩
    have hn : n ≤ c.log.length := by
      apply Classical.byContradiction
      intro hc
      rw [List.drop_of_length_le (by omega)] at hx
      cases hx
    rw [hl, List.drop_append_of_le_length hn]
    exact List.mem_append.mpr (Or.inl hx)
  | forwardReply p => trivial

theorem jobMsg (env : Env) (j : Job) (m : TMsg) :
    DutyMsg (taskOps env) Evolves (fun c u => j.Waits c u) (fun c u => j.Runs c u) (fun c => j.Met c) m (MsgLogged j m) where
  toDutyOf := jobDuty env j
  keepK := fun h hm => MsgLogged.mono h hm
  msg := fun hk hr hp => by
    obtain ⟨e1, e2⟩ := Job.messaged env m hk hr
    rw [e1]
    rcases e2 with h | ⟨_, h⟩
    · exact Or.inr h
    · exact Or.inl h
  msgDone := fun hk hr hp => by
    obtain ⟨e1, e2⟩ := Job.messaged env m hk hr
    rw [e1]
    rcases e2 with h | ⟨h, _⟩
    · exact h
    · rw [h] at hp; cases hp

end Casual.QManager
