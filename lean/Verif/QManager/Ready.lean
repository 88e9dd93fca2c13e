import Verif.QManager.Conform

/-! When the manager says that it is ready. -/
namespace Casual.QManager

open Casual.Task Casual.Config

/-- The manager does not say that it is ready, and its runlevel stays. -/
def Mute (c c' : Core) : Prop := (∃ os, c'.log = c.log ++ outsOf os ∧ Out.ready ∉ os) ∧ c'.runlevel = c.runlevel

theorem Mute.refl (c : Core) : Mute c c := ⟨⟨[], by simp [outsOf], by simp⟩, rfl⟩

theorem Mute.same {c c' : Core} (h : c'.log = c.log) (h' : c'.runlevel = c.runlevel) : Mute c c' := ⟨⟨[], by simp [outsOf, h], by simp⟩, h'⟩

theorem Mute.trans {a b c : Core} (h1 : Mute a b) (h2 : Mute b c) : Mute a c := by
  obtain ⟨⟨o1, l1, n1⟩, r1⟩ := h1
  obtain ⟨⟨o2, l2, n2⟩, r2⟩ := h2
  refine ⟨⟨o1 ++ o2, by rw [l2, l1, List.append_assoc, outsOf_append], ?_⟩, r2.trans r1⟩
  rw [List.mem_append]
  exact fun h => h.elim n1 n2

theorem Mute.emit (c : Core) (o : Out) (h : o ≠ .ready) : Mute c (c.emit o) :=
  ⟨⟨[o], rfl, fun hm => h (List.mem_singleton.mp hm).symm⟩, rfl⟩

theorem Mute.send (c : Core) (env : Env) (d : Ipc) (o : Out) (h : o ≠ .ready) : Mute c (c.send env d o) := by
  unfold Core.send
  split
  · exact Mute.emit c o h
  · exact Mute.refl c

theorem Mute.foldl {α : Type} (f : Core → α → Core) (h : ∀ c x, Mute c (f c x)) :
    ∀ (l : List α) (c : Core), Mute c (l.foldl f c)
  | [], c => Mute.refl c
  | x :: xs, c => (h c x).trans (Mute.foldl f h xs (f c x))

theorem Mute.pending (c : Core) (l : List Lookup) : Mute c { c with pending := l } := Mute.same rfl rfl

theorem Mute.replyAbsent (c : Core) (env : Env) (l : Lookup) : Mute c (c.replyAbsent env l) :=
  Mute.send c env _ _ (fun h => by cases h)

theorem Mute.check (c : Core) (env : Env) : Mute c (c.check env) := by
  unfold Core.check
  refine (Mute.pending c []).trans (Mute.foldl _ ?_ _ _)
  intro acc l
  split
  · split
    · exact Mute.emit _ _ (fun h => by cases h)
    · exact Mute.pending _ _
  · exact Mute.pending _ _

theorem Mute.discardAll (c : Core) (env : Env) : Mute c (c.discardAll env) := by
  unfold Core.discardAll
  exact (Mute.pending c []).trans (Mute.foldl _ (fun c l => Mute.replyAbsent c env l) _ _)

theorem Mute.absentQueue (c : Core) (env : Env) (l : Lookup) : Mute c (c.absentQueue env l) := by
  unfold Core.absentQueue
  split
  · exact Mute.replyAbsent c env l
  · exact Mute.pending _ _

theorem Mute.lookupRequest (c : Core) (env : Env) (l : Lookup) : Mute c (c.lookupRequest env l) := by
  unfold Core.lookupRequest
  split
  · exact Mute.replyAbsent c env l
  · split
    · split
      · exact Mute.send _ _ _ _ (fun h => by cases h)
      · unfold Core.discovery
        exact (Mute.emit c (.discoveryRequest l.name l.corr) (fun h => by cases h)).trans (Mute.pending _ _)
    · split
      · exact Mute.send _ _ _ _ (fun h => by cases h)
      · exact Mute.absentQueue c env l
    · split
      · exact Mute.send _ _ _ _ (fun h => by cases h)
      · exact Mute.absentQueue c env l

theorem Mute.discardRequest (c : Core) (env : Env) (corr : Corr) (p : Handle) : Mute c (c.discardRequest env corr p) := by
  unfold Core.discardRequest
  split
  · exact (Mute.pending c _).trans (Mute.send _ _ _ _ (fun h => by cases h))
  · exact Mute.send _ _ _ _ (fun h => by cases h)

theorem Mute.discoveryReply (c : Core) (env : Env) (corr : Corr) : Mute c (c.discoveryReply env corr) := by
  unfold Core.discoveryReply
  dsimp only
  refine (Mute.check c env).trans ?_
  generalize c.check env = c
  split
  · split
    · exact (Mute.pending c _).trans (Mute.replyAbsent _ env _)
    · exact Mute.refl c
  · exact Mute.refl c

theorem Mute.framed {c c' : Core} (h : Framed c c') : Mute c c' := by
  obtain ⟨os, hl, ho⟩ := h.log
  exact ⟨⟨os, hl, fun hm => ho.1 _ hm⟩, h.runlevel⟩

/-! ### The state of the children -/

/-- The queue group has answered a configuration. -/
def ReportedG (log : List Item) (pid : Pid) : Prop := ∃ h qs, h.pid = pid ∧ Item.inp (.groupReply h qs) ∈ log

/-- The forward group has answered a configuration. -/
def ReportedF (log : List Item) (pid : Pid) : Prop := ∃ h : Handle, h.pid = pid ∧ Item.inp (.forwardReply h) ∈ log

/-- Something may have been told to stop. -/
def Ending (log : List Item) : Prop :=
  Item.inp .shutdown ∈ log ∨ ∃ k p dg m, Item.inp (.configUpdate k p dg m) ∈ log

/-- Some child is to stop. -/
def busy (c : Core) : Nat :=
  if c.groups.any (·.state == .shutdown) || c.forwards.any (·.state == .shutdown) then 1 else 0

def rmUnit (u : QUnit) : Nat :=
  match u.action with
  | some (.rmGroups _) => 1
  | some (.rmForwards _) => 1
  | _ => 0

/-- Nothing new runs. -/
def Calm (c c' : Core) : Prop :=
  (∀ g ∈ c'.groups, g.state = .running → ∃ g0 ∈ c.groups, g0.process.pid = g.process.pid ∧ g0.state = .running) ∧
  (∀ g ∈ c'.forwards, g.state = .running → ∃ g0 ∈ c.forwards, g0.process.pid = g.process.pid ∧ g0.state = .running)

theorem Calm.refl (c : Core) : Calm c c := ⟨fun g hg h => ⟨g, hg, rfl, h⟩, fun g hg h => ⟨g, hg, rfl, h⟩⟩

theorem Calm.trans {a b c : Core} (h1 : Calm a b) (h2 : Calm b c) : Calm a c := by
  refine ⟨fun g hg h => ?_, fun g hg h => ?_⟩
  · obtain ⟨g0, hg0, e0, h0⟩ := h2.1 g hg h
    obtain ⟨g1, hg1, e1, h1⟩ := h1.1 g0 hg0 h0
    exact ⟨g1, hg1, e1.trans e0, h1⟩
  · obtain ⟨g0, hg0, e0, h0⟩ := h2.2 g hg h
    obtain ⟨g1, hg1, e1, h1⟩ := h1.2 g0 hg0 h0
    exact ⟨g1, hg1, e1.trans e0, h1⟩

/-- The children are the same. -/
theorem Calm.same {c c' : Core} (h : c'.groups = c.groups) (h' : c'.forwards = c.forwards) : Calm c c' := by
  unfold Calm
  rw [h, h']
  exact Calm.refl c

theorem busy_same {c c' : Core} (h : c'.groups = c.groups) (h' : c'.forwards = c.forwards) : busy c' = busy c := by
  unfold busy
  rw [h, h']

theorem send_children (c : Core) (env : Env) (d : Ipc) (o : Out) : (c.send env d o).groups = c.groups ∧ (c.send env d o).forwards = c.forwards := by
  unfold Core.send
  split <;> exact ⟨rfl, rfl⟩

/-- Everything a task does to the children: it spawns some, or tells some to stop. -/
theorem act_children (env : Env) (a : TAct) (b : TBody) (c : Core) :
    Calm c (taskAct env a b c).1 ∧ busy (taskAct env a b c).1 ≤ busy c + match a with | .rmGroups _ => 1 | .rmForwards _ => 1 | _ => 0 := by
  cases a with
  | addGroups cfgs =>
    show Calm c (c.spawnGroups cfgs) ∧ busy (c.spawnGroups cfgs) ≤ busy c
    unfold Core.spawnGroups
    induction cfgs generalizing c with
    | nil => exact ⟨Calm.refl c, Nat.le_refl _⟩
    | cons x xs ih =>
      refine ⟨Calm.trans ?_ (ih _).1, Nat.le_trans (ih _).2 (Nat.le_of_eq ?_)⟩
      · refine ⟨fun g hg h => ?_, fun g hg h => ⟨g, hg, rfl, h⟩⟩
        rcases List.mem_append.mp hg with hg | hg
        · exact ⟨g, hg, rfl, h⟩
        · rw [List.mem_singleton.mp hg] at h
          cases h
      · unfold busy
        dsimp only [Core.emit]
        rw [List.any_append]
        simp
  | addForwards cfgs =>
    show Calm c (c.spawnForwards cfgs) ∧ busy (c.spawnForwards cfgs) ≤ busy c
    unfold Core.spawnForwards
    induction cfgs generalizing c with
    | nil => exact ⟨Calm.refl c, Nat.le_refl _⟩
    | cons x xs ih =>
      refine ⟨Calm.trans ?_ (ih _).1, Nat.le_trans (ih _).2 (Nat.le_of_eq ?_)⟩
      · refine ⟨fun g hg h => ⟨g, hg, rfl, h⟩, fun g hg h => ?_⟩
        rcases List.mem_append.mp hg with hg | hg
        · exact ⟨g, hg, rfl, h⟩
        · rw [List.mem_singleton.mp hg] at h
          cases h
      · unfold busy
        dsimp only [Core.emit]
        rw [List.any_append]
        simp
  | rmGroups cfgs =>
    refine ⟨?_, Nat.le_trans (m := 1) (by unfold busy; split <;> omega) (Nat.le_add_left _ _)⟩
    show Calm c (c.shutdownGroups env cfgs).1
    unfold Core.shutdownGroups
    dsimp only
    refine ⟨fun g hg h => ?_, fun g hg h => ?_⟩
    · obtain ⟨g0, hg0, rfl⟩ := List.mem_map.mp hg
      split at h
      · cases h
      · rename_i hn
        rw [if_neg hn]
        exact ⟨g0, hg0, rfl, h⟩
    · refine ⟨g, ?_, rfl, h⟩
      rw [← (foldl_sendShutdown_groups env _ c).2]
      exact hg
  | rmForwards cfgs =>
    refine ⟨?_, Nat.le_trans (m := 1) (by unfold busy; split <;> omega) (Nat.le_add_left _ _)⟩
    show Calm c (c.shutdownForwards env cfgs).1
    unfold Core.shutdownForwards
    dsimp only
    refine ⟨fun g hg h => ?_, fun g hg h => ?_⟩
    · refine ⟨g, ?_, rfl, h⟩
      rw [← (foldl_sendShutdown_groups env _ c).1]
      exact hg
    · obtain ⟨g0, hg0, rfl⟩ := List.mem_map.mp hg
      split at h
      · cases h
      · rename_i hn
        rw [if_neg hn]
        exact ⟨g0, hg0, rfl, h⟩
  | modGroups cfgs =>
    have hs : ∀ (l : List GroupCfg) (r : Core × List Pid),
        (l.foldl (fun r cfg => match c.groups.find? (·.configuration.alias == cfg.alias) with
          | some g => (r.1.send env g.process.ipc (.groupUpdate g.process.ipc cfg), r.2 ++ [g.process.pid])
          | none => r) r).1.groups = r.1.groups ∧
        (l.foldl (fun r cfg => match c.groups.find? (·.configuration.alias == cfg.alias) with
          | some g => (r.1.send env g.process.ipc (.groupUpdate g.process.ipc cfg), r.2 ++ [g.process.pid])
          | none => r) r).1.forwards = r.1.forwards := by
      intro l
      induction l with
      | nil => intro r; exact ⟨rfl, rfl⟩
      | cons x xs ih =>
        intro r
        rw [List.foldl_cons]
        obtain ⟨e1, e2⟩ := ih (match c.groups.find? (·.configuration.alias == x.alias) with
          | some g => (r.1.send env g.process.ipc (.groupUpdate g.process.ipc x), r.2 ++ [g.process.pid])
          | none => r)
        rw [e1, e2]
        split
        · exact send_children _ _ _ _
        · exact ⟨rfl, rfl⟩
    obtain ⟨e1, e2⟩ := hs cfgs (c, [])
    exact ⟨Calm.same e1 e2, Nat.le_of_eq (busy_same e1 e2)⟩
  | modForwards cfgs =>
    have hs : ∀ (l : List FwdCfg) (r : Core × List Pid),
        (l.foldl (fun r cfg => match c.groups.find? (·.configuration.alias == cfg.alias) with
          | some g => (r.1.send env g.process.ipc (.forwardUpdate g.process.ipc cfg none), r.2 ++ [g.process.pid])
          | none => r) r).1.groups = r.1.groups ∧
        (l.foldl (fun r cfg => match c.groups.find? (·.configuration.alias == cfg.alias) with
          | some g => (r.1.send env g.process.ipc (.forwardUpdate g.process.ipc cfg none), r.2 ++ [g.process.pid])
          | none => r) r).1.forwards = r.1.forwards := by
      intro l
      induction l with
      | nil => intro r; exact ⟨rfl, rfl⟩
      | cons x xs ih =>
        intro r
        rw [List.foldl_cons]
        obtain ⟨e1, e2⟩ := ih (match c.groups.find? (·.configuration.alias == x.alias) with
          | some g => (r.1.send env g.process.ipc (.forwardUpdate g.process.ipc x none), r.2 ++ [g.process.pid])
          | none => r)
        rw [e1, e2]
        split
        · exact send_children _ _ _ _
        · exact ⟨rfl, rfl⟩
    obtain ⟨e1, e2⟩ := hs cfgs (c, [])
    exact ⟨Calm.same e1 e2, Nat.le_of_eq (busy_same e1 e2)⟩
  | reply p k =>
    obtain ⟨e1, e2⟩ := send_children c env p.ipc (.updateReply p.ipc k)
    exact ⟨Calm.same e1 e2, Nat.le_of_eq (busy_same e1 e2)⟩

theorem calmKeeps (env : Env) : Task.Keeps (taskOps env) Calm where
  refl := Calm.refl
  trans := Calm.trans
  act := fun a b c => (act_children env a b c).1
  handle := fun b m h hh c => by
    rw [taskHandle_fst (b := b) (m := m) hh c]
    exact Calm.refl c

theorem busyWeighs (env : Env) : Weighs (taskOps env) busy rmUnit where
  start := by
    intro u c
    unfold unitStart
    split
    · rename_i a ha
      dsimp only
      have e : rmUnit { u with action := none, body := ((taskOps env).act a u.body c).2.1 } = 0 := rfl
      rw [e]
      refine Nat.le_trans (act_children env a u.body c).2 (Nat.add_le_add_left ?_ _)
      unfold rmUnit
      rw [ha]
      cases a <;> exact Nat.le_refl _
    · exact Nat.le_refl _
  msg := by
    intro m u c
    unfold unitMsg
    split
    · rename_i h hh
      dsimp only
      rw [taskHandle_fst (b := u.body) (m := m) hh c]
      exact Nat.le_refl _
    · exact Nat.le_refl _

/-- The invariant. -/
structure RDInv (s : State) : Prop where
  groups : ∀ g ∈ s.core.groups, g.state = .running → ReportedG s.core.log g.process.pid
  forwards : ∀ g ∈ s.core.forwards, g.state = .running → ReportedF s.core.log g.process.pid
  busy : ¬ Ending s.core.log → busy s.core + sumW rmUnit s.tasks.flatten = 0

theorem ReportedG.mono {a b : List Item} {pid : Pid} (h : ReportedG a pid) (hs : ∀ x ∈ a, x ∈ b) : ReportedG b pid := by
  obtain ⟨x, qs, e, hx⟩ := h
  exact ⟨x, qs, e, hs _ hx⟩

theorem ReportedF.mono {a b : List Item} {pid : Pid} (h : ReportedF a pid) (hs : ∀ x ∈ a, x ∈ b) : ReportedF b pid := by
  obtain ⟨x, e, hx⟩ := h
  exact ⟨x, e, hs _ hx⟩

theorem Ending.mono {a b : List Item} (h : Ending a) (hs : ∀ x ∈ a, x ∈ b) : Ending b :=
  h.imp (hs _) (fun ⟨k, p, dg, m, hm⟩ => ⟨k, p, dg, m, hs _ hm⟩)

theorem RDInv.mk' {s s' : State} (h : RDInv s) (hc : Calm s.core s'.core) (hl : ∀ x ∈ s.core.log, x ∈ s'.core.log)
    (hb : Ending s'.core.log ∨ QManager.busy s'.core + sumW rmUnit s'.tasks.flatten ≤ QManager.busy s.core + sumW rmUnit s.tasks.flatten) : RDInv s' where
  groups := fun g hg hr => by
    obtain ⟨g0, hg0, e, h0⟩ := hc.1 g hg hr
    rw [← e]
    exact (h.groups g0 hg0 h0).mono hl
  forwards := fun g hg hr => by
    obtain ⟨g0, hg0, e, h0⟩ := hc.2 g hg hr
    rw [← e]
    exact (h.forwards g0 hg0 h0).mono hl
  busy := fun hn => by
    rcases hb with hb | hb
    · exact absurd hb hn
    · have := h.busy (fun he => hn (he.mono hl))
      omega

theorem RDInv.core {s : State} (h : RDInv s) {c : Core} (hc : Calm s.core c) (hl : ∀ x ∈ s.core.log, x ∈ c.log)
    (hb : QManager.busy c ≤ QManager.busy s.core) : RDInv { s with core := c } :=
  RDInv.mk' (s' := { s with core := c }) h hc hl (Or.inr (Nat.add_le_add_right hb _))

theorem RDInv.quiet {s : State} (h : RDInv s) {c : Core} (hq : Quiet s.core c) : RDInv { s with core := c } := by
  obtain ⟨os, hl, _⟩ := hq.log
  exact h.core (Calm.same hq.groups hq.forwards) (fun x hx => by rw [hl]; exact List.mem_append.mpr (Or.inl hx))
    (Nat.le_of_eq (busy_same hq.groups hq.forwards))

theorem Grows.mem {c c' : Core} (h : Grows c c') : ∀ x ∈ c.log, x ∈ c'.log := by
  obtain ⟨os, hl, _⟩ := h
  intro x hx
  rw [hl]
  exact List.mem_append.mpr (Or.inl hx)

theorem RDInv.taskMsg {s : State} (h : RDInv s) (env : Env) (m : TMsg) : RDInv (s.taskMsg env m) :=
  h.mk' ((calmKeeps env).coordMsg m s.tasks s.core) (Grows.taskMsg s env m).mem (Or.inr ((busyWeighs env).coordMsg m s.tasks s.core))

theorem RDInv.taskThen {s : State} (h : RDInv s) (env : Env) (a : TAct) (k : TKind)
    (ha : Ending s.core.log ∨ match a with | .rmGroups _ => False | .rmForwards _ => False | _ => True) : RDInv (s.taskThen env a k) := by
  refine h.mk' ((calmKeeps env).coordThen _ s.tasks s.core) (Grows.taskThen s env a k).mem ?_
  rcases ha with ha | ha
  · exact Or.inl (ha.mono (Grows.taskThen s env a k).mem)
  · refine Or.inr (Nat.le_trans ((busyWeighs env).coordThen _ s.tasks s.core) ?_)
    have : sumW rmUnit (mkGroup s.seq [(a, ({ kind := k } : TBody))]) = 0 := by
      cases a <;> first | (cases ha; done) | rfl
    rw [this]
    exact Nat.le_refl _

theorem RDInv.thenIf {s : State} (h : RDInv s) {α : Type} (env : Env) (l : List α) (a : List α → TAct) (k : TKind)
    (ha : Ending s.core.log ∨ l = [] ∨ match a l with | .rmGroups _ => False | .rmForwards _ => False | _ => True) : RDInv (s.thenIf env l a k) := by
  unfold State.thenIf
  split
  · exact h
  · rename_i hn
    refine h.taskThen env _ k ?_
    rcases ha with ha | ha | ha
    · exact Or.inl ha
    · rw [ha] at hn
      exact absurd rfl hn
    · exact Or.inr ha

theorem RDInv.conform {s : State} (h : RDInv s) (env : Env) (current wanted : Model)
    (he : Ending s.core.log ∨ (current.groups = [] ∧ current.forwards = [])) : RDInv (s.conform env current wanted) := by
  unfold State.conform
  dsimp only
  have hx : ∀ {α : Type} (s0 : State) (l : List α) (a : List α → TAct) (k : TKind), Ending s0.core.log → Ending (s0.thenIf env l a k).core.log :=
    fun s0 l a k hs => hs.mono (Grows.thenIf s0 env l a k).mem
  refine RDInv.thenIf (RDInv.thenIf (RDInv.thenIf (RDInv.thenIf (RDInv.thenIf (RDInv.thenIf h env _ _ _ ?_) env _ _ _ ?_) env _ _ _ ?_) env _ _ _ ?_) env _ _ _ ?_) env _ _ _ ?_
  · rcases he with he | ⟨_, he⟩
    · exact Or.inl he
    · exact Or.inr (Or.inl (by rw [he]; rfl))
  · rcases he with he | ⟨he, _⟩
    · exact Or.inl (hx _ _ _ _ he)
    · exact Or.inr (Or.inl (by rw [he]; rfl))
  all_goals exact Or.inr (Or.inr trivial)

/-- The children are told to stop only if they were. -/
theorem busy_le {c c' : Core} (h : ∀ g ∈ c'.groups, g.state = .shutdown → ∃ g0 ∈ c.groups, g0.state = .shutdown)
    (h' : ∀ g ∈ c'.forwards, g.state = .shutdown → ∃ g0 ∈ c.forwards, g0.state = .shutdown) : busy c' ≤ busy c := by
  unfold busy
  split
  · rename_i hb
    rw [if_pos]
    · exact Nat.le_refl _
    · rcases Bool.or_eq_true_iff.mp hb with hb | hb
      · obtain ⟨g, hg, e⟩ := List.any_eq_true.mp hb
        obtain ⟨g0, hg0, e0⟩ := h g hg (by simpa using e)
        rw [Bool.or_eq_true_iff]
        exact Or.inl (List.any_eq_true.mpr ⟨g0, hg0, by simpa using e0⟩)
      · obtain ⟨g, hg, e⟩ := List.any_eq_true.mp hb
        obtain ⟨g0, hg0, e0⟩ := h' g hg (by simpa using e)
        rw [Bool.or_eq_true_iff]
        exact Or.inr (List.any_eq_true.mpr ⟨g0, hg0, by simpa using e0⟩)
  · exact Nat.zero_le _

theorem groupConnect_calm (c : Core) (env : Env) (p : Handle) : Calm c (c.groupConnect env p) ∧ busy (c.groupConnect env p) ≤ busy c := by
  unfold Core.groupConnect
  split
  · rename_i g0 _
    dsimp only
    obtain ⟨e1, e2⟩ := send_children { c with groups := updateFirst (·.process.pid == p.pid) (fun g => { g with state := .connected, process := p }) c.groups }
      env p.ipc (.groupUpdate p.ipc g0.configuration)
    refine ⟨Calm.trans ?_ (Calm.same e1 e2), ?_⟩
    · refine ⟨fun g hg hr => ?_, fun g hg hr => ⟨g, hg, rfl, hr⟩⟩
      rcases mem_updateFirst hg with hg | ⟨y, _, _, rfl⟩
      · exact ⟨g, hg, rfl, hr⟩
      · cases hr
    · rw [busy_same e1 e2]
      refine busy_le (fun g hg hr => ?_) (fun g hg hr => ⟨g, hg, hr⟩)
      rcases mem_updateFirst hg with hg | ⟨y, _, _, rfl⟩
      · exact ⟨g, hg, hr⟩
      · cases hr
  · exact ⟨Calm.refl _, Nat.le_refl _⟩

theorem forwardConnect_calm (c : Core) (env : Env) (p : Handle) : Calm c (c.forwardConnect env p) ∧ busy (c.forwardConnect env p) ≤ busy c := by
  unfold Core.forwardConnect
  split
  · rename_i g0 _
    dsimp only
    obtain ⟨e1, e2⟩ := send_children { c with forwards := updateFirst (·.process.pid == p.pid) (fun g => { g with state := .connected, process := p }) c.forwards }
      env p.ipc (.forwardUpdate p.ipc g0.configuration (some c.domainGroups))
    refine ⟨Calm.trans ?_ (Calm.same e1 e2), ?_⟩
    · refine ⟨fun g hg hr => ⟨g, hg, rfl, hr⟩, fun g hg hr => ?_⟩
      rcases mem_updateFirst hg with hg | ⟨y, _, _, rfl⟩
      · exact ⟨g, hg, rfl, hr⟩
      · cases hr
    · rw [busy_same e1 e2]
      refine busy_le (fun g hg hr => ⟨g, hg, hr⟩) (fun g hg hr => ?_)
      rcases mem_updateFirst hg with hg | ⟨y, _, _, rfl⟩
      · exact ⟨g, hg, hr⟩
      · cases hr
  · exact ⟨Calm.refl _, Nat.le_refl _⟩

theorem RDInv.forwardReply {s1 : State} (h1 : RDInv s1) (p : Handle) (hm : Item.inp (.forwardReply p) ∈ s1.core.log) :
    RDInv { s1 with core := s1.core.forwardReply p } := by
  refine ⟨h1.groups, fun g hg hr => ?_, fun hn => ?_⟩
  · rcases mem_updateFirst hg with hg | ⟨y, _, hy, rfl⟩
    · exact h1.forwards g hg hr
    · refine ⟨p, ?_, hm⟩
      have : y.process.pid = p.pid := by simpa using hy
      exact this.symm
  · have := h1.busy hn
    have hb : QManager.busy (s1.core.forwardReply p) ≤ QManager.busy s1.core := by
      refine busy_le (fun g hg hr => ⟨g, hg, hr⟩) (fun g hg hr => ?_)
      rcases mem_updateFirst hg with hg | ⟨y, _, _, rfl⟩
      · exact ⟨g, hg, hr⟩
      · cases hr
    show QManager.busy (s1.core.forwardReply p) + _ = 0
    dsimp only at *
    omega

theorem RDInv.groupReply {s1 : State} (h1 : RDInv s1) (env : Env) (p : Handle) (qs : List (Name × Int)) (hm : Item.inp (.groupReply p qs) ∈ s1.core.log) :
    RDInv { s1 with core := (s1.core.updateGroup p qs).check env } := by
  refine RDInv.quiet (s := { s1 with core := s1.core.updateGroup p qs }) ?_ (Quiet.check _ env)
  have hlog : (s1.core.updateGroup p qs).log = s1.core.log := (updateGroup_groups _ p qs).2
  have hgr : ∀ g ∈ (s1.core.updateGroup p qs).groups, g ∈ s1.core.groups ∨ (g.process.pid = p.pid ∧ g.state = .running) := by
    intro g hg
    unfold Core.updateGroup at hg
    dsimp only at hg
    split at hg
    · exact Or.inl hg
    · rcases mem_updateFirst hg with hg | ⟨y, _, hy, rfl⟩
      · exact Or.inl hg
      · exact Or.inr ⟨by simpa using hy, rfl⟩
  have hfw : (s1.core.updateGroup p qs).forwards = s1.core.forwards := by
    unfold Core.updateGroup
    dsimp only
    split <;> rfl
  refine ⟨fun g hg hr => ?_, fun g hg hr => ?_, fun hn => ?_⟩
  · dsimp only
    rw [hlog]
    rcases hgr g hg with hg | ⟨e, _⟩
    · exact h1.groups g hg hr
    · exact ⟨p, qs, e.symm, hm⟩
  · dsimp only at hg ⊢
    rw [hfw] at hg
    rw [hlog]
    exact h1.forwards g hg hr
  · dsimp only at hn
    rw [hlog] at hn
    have := h1.busy hn
    have hb : QManager.busy (s1.core.updateGroup p qs) ≤ QManager.busy s1.core := by
      refine busy_le (fun g hg hr => ?_) (fun g hg hr => ⟨g, by rw [← hfw]; exact hg, hr⟩)
      rcases hgr g hg with hg | ⟨_, e⟩
      · exact ⟨g, hg, hr⟩
      · rw [e] at hr; cases hr
    dsimp only
    omega

theorem step_rd {s : State} (h : RDInv s) (env : Env) (i : Input) : RDInv (s.step (env, i)) := by
  rw [step_eq]
  have sub : ∀ x ∈ s.core.log, x ∈ (s.core.logged i).log := fun x hx => List.mem_append.mpr (Or.inl hx)
  have hl : RDInv { s with core := s.core.logged i } := h.core (Calm.same rfl rfl) sub (Nat.le_refl _)
  have mem : Item.inp i ∈ (s.core.logged i).log := List.mem_append.mpr (Or.inr (List.mem_singleton.mpr rfl))
  cases i with
  | lookup l => exact hl.quiet (Quiet.lookupRequest _ env l)
  | discard k p => exact hl.quiet (Quiet.discardRequest _ env k p)
  | discoveryLookup k p scope names => exact hl.quiet (Quiet.send _ env _ _ trivial)
  | discoveryReply k => exact hl.quiet (Quiet.discoveryReply _ env k)
  | fetchKnown k p => exact hl.quiet (Quiet.send _ env _ _ trivial)
  | configRequest k p => exact hl.quiet (Quiet.send _ env _ _ trivial)
  | idle => exact hl.quiet (Quiet.idle _)
  | abort => exact hl.quiet (Quiet.abort _ env)
  | configUpdate k p dg wanted =>
    have h1 : RDInv { s with core := { s.core.logged (.configUpdate k p dg wanted) with domainGroups := dg } } :=
      hl.core (Calm.same rfl rfl) (fun _ h => h) (Nat.le_refl _)
    exact (h1.conform env _ wanted (Or.inl (Or.inr ⟨_, _, _, _, mem⟩))).taskThen env _ _ (Or.inr trivial)
  | shutdown =>
    have hq := Quiet.discardAll ({ s.core.logged .shutdown with runlevel := .shutdown } : Core) env
    have h1 : RDInv { s with core := ({ s.core.logged .shutdown with runlevel := .shutdown } : Core).discardAll env } :=
      RDInv.quiet (s := { s with core := ({ s.core.logged .shutdown with runlevel := .shutdown } : Core) })
        (hl.core (Calm.same rfl rfl) (fun _ h => h) (Nat.le_refl _)) hq
    refine h1.conform env _ {} (Or.inl (Or.inl ?_))
    obtain ⟨os, hl, _⟩ := hq.log
    dsimp only
    rw [hl]
    exact List.mem_append.mpr (Or.inl mem)
  | groupConnect p => exact (hl.taskMsg env (.groupConnect p.pid)).core (groupConnect_calm _ env p).1 (Grows.groupConnect _ env p).mem (groupConnect_calm _ env p).2
  | forwardConnect p => exact (hl.taskMsg env (.forwardConnect p.pid)).core (forwardConnect_calm _ env p).1 (Grows.forwardConnect _ env p).mem (forwardConnect_calm _ env p).2
  | forwardReply p => exact (hl.taskMsg env (.forwardReply p.pid)).forwardReply p ((Grows.taskMsg _ env _).mem _ mem)
  | groupReply p qs => exact (hl.taskMsg env (.groupReply p.pid)).groupReply env p qs ((Grows.taskMsg _ env _).mem _ mem)
  | advertise a =>
    have hgf : ((s.core.logged (.advertise a)).updateAdvertise a).groups = (s.core.logged (.advertise a)).groups ∧
        ((s.core.logged (.advertise a)).updateAdvertise a).forwards = (s.core.logged (.advertise a)).forwards := by
      unfold Core.updateAdvertise
      split
      · exact ⟨rfl, rfl⟩
      · split <;> exact ⟨rfl, rfl⟩
      · exact ⟨rfl, rfl⟩
    have h1 : RDInv { s with core := (s.core.logged (.advertise a)).updateAdvertise a } :=
      hl.core (Calm.same hgf.1 hgf.2) (Grows.updateAdvertise _ a).mem (Nat.le_of_eq (busy_same hgf.1 hgf.2))
    exact h1.quiet (Quiet.check _ env)
  | exitEvent pid =>
    refine (hl.taskMsg env (.exit pid)).core ?_ (fun x hx => hx) ?_
    · exact ⟨fun g hg hr => ⟨g, (List.mem_filter.mp hg).1, rfl, hr⟩, fun g hg hr => ⟨g, (List.mem_filter.mp hg).1, rfl, hr⟩⟩
    · exact busy_le (fun g hg hr => ⟨g, (List.mem_filter.mp hg).1, hr⟩) (fun g hg hr => ⟨g, (List.mem_filter.mp hg).1, hr⟩)
  | childExit pid =>
    refine RDInv.core (s := { s with core := (s.core.logged (.childExit pid)).emit (.exitEvent pid) })
      (hl.core (Calm.same rfl rfl) (fun x hx => List.mem_append.mpr (Or.inl hx)) (Nat.le_refl _)) ?_ (fun x hx => hx) ?_
    · exact ⟨fun g hg hr => ⟨g, (List.mem_filter.mp hg).1, rfl, hr⟩, fun g hg hr => ⟨g, (List.mem_filter.mp hg).1, rfl, hr⟩⟩
    · exact busy_le (fun g hg hr => ⟨g, (List.mem_filter.mp hg).1, hr⟩) (fun g hg hr => ⟨g, (List.mem_filter.mp hg).1, hr⟩)
  | ipcDestroyed ipc => exact hl.core (Calm.same rfl rfl) (fun _ h => h) (Nat.le_refl _)

theorem run_rd (env : Env) (dg : Nat) (model : Model) (np : Pid) (xs : List (Env × Input)) : RDInv (State.run env dg model np xs) := by
  have h0 : RDInv (State.init env dg model np) := by
    refine RDInv.conform (s := { core := { domainGroups := dg, nextPid := np } }) ?_ env {} model (Or.inr ⟨rfl, rfl⟩)
    exact ⟨fun g hg _ => (by cases hg), fun g hg _ => (by cases hg), fun _ => rfl⟩
  unfold State.run
  generalize State.init env dg model np = s at h0
  induction xs generalizing s with
  | nil => exact h0
  | cons x xs ih => exact ih _ (step_rd h0 x.1 x.2)

theorem Mute.groupConnect (c : Core) (env : Env) (p : Handle) : Mute c (c.groupConnect env p) := by
  unfold Core.groupConnect
  split
  · exact Mute.trans (b := { c with groups := _ }) (Mute.same rfl rfl) (Mute.send _ env _ _ (fun h => by cases h))
  · exact Mute.refl _

theorem Mute.forwardConnect (c : Core) (env : Env) (p : Handle) : Mute c (c.forwardConnect env p) := by
  unfold Core.forwardConnect
  split
  · exact Mute.trans (b := { c with forwards := _ }) (Mute.same rfl rfl) (Mute.send _ env _ _ (fun h => by cases h))
  · exact Mute.refl _

/-- Only idle says that the manager is ready. -/
theorem step_mute (s : State) (env : Env) (i : Input) (hi : i ≠ .idle) :
    ∃ ys, (s.step (env, i)).core.log = s.core.log ++ ys ∧ Item.out .ready ∉ ys ∧
      ((s.step (env, i)).core.runlevel = .configuring → s.core.runlevel = .configuring) := by
  have fin : ∀ c', Mute (s.core.logged i) c' → ∃ ys, c'.log = s.core.log ++ ys ∧ Item.out .ready ∉ ys ∧
      (c'.runlevel = .configuring → s.core.runlevel = .configuring) := by
    intro c' ⟨⟨os, hl, hn⟩, hr⟩
    refine ⟨.inp i :: outsOf os, by rw [hl]; simp [Core.logged], ?_, fun h => by rw [hr] at h; exact h⟩
    intro hm
    rcases List.mem_cons.mp hm with h | h
    · cases h
    · obtain ⟨o, ho, e⟩ := mem_outsOf.mp h
      injection e with e
      subst e
      exact hn ho
  have fin2 : ∀ c' c1, c1.log = s.core.log ++ [.inp i] → c1.runlevel ≠ .configuring → Mute c1 c' → ∃ ys, c'.log = s.core.log ++ ys ∧ Item.out .ready ∉ ys ∧
      (c'.runlevel = .configuring → s.core.runlevel = .configuring) := by
    intro c' c1 h1 h2 ⟨⟨os, hl, hn⟩, hr⟩
    refine ⟨.inp i :: outsOf os, by rw [hl, h1]; simp, ?_, fun h => absurd (hr.symm.trans h) h2⟩
    intro hm
    rcases List.mem_cons.mp hm with h | h
    · cases h
    · obtain ⟨o, ho, e⟩ := mem_outsOf.mp h
      injection e with e
      subst e
      exact hn ho
  rw [step_eq]
  cases i with
  | lookup l => exact fin _ (Mute.lookupRequest _ env l)
  | discard k p => exact fin _ (Mute.discardRequest _ env k p)
  | discoveryLookup k p scope names => exact fin _ (Mute.send _ env _ _ (fun h => by cases h))
  | discoveryReply k => exact fin _ (Mute.discoveryReply _ env k)
  | fetchKnown k p => exact fin _ (Mute.send _ env _ _ (fun h => by cases h))
  | configRequest k p => exact fin _ (Mute.send _ env _ _ (fun h => by cases h))
  | idle => exact absurd rfl hi
  | abort =>
    refine fin2 _ { s.core.logged .abort with runlevel := .error } rfl (fun h => by cases h) ?_
    show Mute _ (Core.abort _ env)
    unfold Core.abort
    dsimp only
    refine (Mute.discardAll _ env).trans ?_
    generalize Core.discardAll _ env = c1
    have h1 := Mute.foldl (fun (acc : Core) (g : Entity FwdCfg) => acc.emit (.terminate g.process.pid))
      (fun c g => Mute.emit c _ (fun h => by cases h)) c1.forwards c1
    exact h1.trans (Mute.foldl (fun (acc : Core) (g : Entity GroupCfg) => acc.emit (.terminate g.process.pid))
      (fun c g => Mute.emit c _ (fun h => by cases h)) _ _)
  | configUpdate k p dg wanted =>
    refine fin _ (Mute.trans (b := { s.core.logged (.configUpdate k p dg wanted) with domainGroups := dg }) (Mute.same rfl rfl) ?_)
    let s1 : State := { s with core := { s.core.logged (.configUpdate k p dg wanted) with domainGroups := dg } }
    exact Mute.framed ((Framed.conform s1 env s1.core.configuration wanted).trans (Framed.taskThen _ env (.reply p k) .none))
  | shutdown =>
    refine fin2 _ { s.core.logged .shutdown with runlevel := .shutdown } rfl (fun h => by cases h) ?_
    let s1 : State := { s with core := ({ s.core.logged .shutdown with runlevel := .shutdown } : Core).discardAll env }
    exact (Mute.discardAll _ env).trans (Mute.framed (Framed.conform s1 env s1.core.configuration {}))
  | groupConnect p =>
    exact fin _ ((Mute.framed (Framed.taskMsg { s with core := s.core.logged (.groupConnect p) } env (.groupConnect p.pid))).trans (Mute.groupConnect _ env p))
  | forwardConnect p =>
    exact fin _ ((Mute.framed (Framed.taskMsg { s with core := s.core.logged (.forwardConnect p) } env (.forwardConnect p.pid))).trans (Mute.forwardConnect _ env p))
  | forwardReply p => exact fin _ ((Mute.framed (Framed.taskMsg _ env _)).trans (Mute.same rfl rfl))
  | groupReply p qs =>
    refine fin _ ((Mute.framed (Framed.taskMsg _ env _)).trans (Mute.trans (Mute.same (updateGroup_groups _ p qs).2 ?_) (Mute.check _ env)))
    unfold Core.updateGroup
    dsimp only
    split <;> rfl
  | advertise a =>
    refine fin _ (Mute.trans (Mute.same (updateAdvertise_rest _ a).2 ?_) (Mute.check _ env))
    unfold Core.updateAdvertise
    split
    · rfl
    · split <;> rfl
    · rfl
  | exitEvent pid => exact fin _ ((Mute.framed (Framed.taskMsg _ env _)).trans (Mute.same rfl rfl))
  | childExit pid => exact fin _ ((Mute.emit _ (.exitEvent pid) (fun h => by cases h)).trans (Mute.same rfl rfl))
  | ipcDestroyed ipc => exact fin _ (Mute.same rfl rfl)

end Casual.QManager
