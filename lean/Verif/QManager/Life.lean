import Verif.QManager.LifeSpec
import Verif.QManager.RegStep

/-! The children of the manager are those that were spawned and have not exited. -/
namespace Casual.QManager

open Casual.Task

/-- The queue groups of the state, as in the specification. -/
def Core.gs (c : Core) : List (Pid × GroupCfg) := c.groups.map fun g => (g.process.pid, g.configuration)

/-- The forward groups of the state. -/
def Core.fs (c : Core) : List (Pid × FwdCfg) := c.forwards.map fun g => (g.process.pid, g.configuration)

theorem spawnedGroups_append (a b : List Item) : spawnedGroups (a ++ b) = spawnedGroups a ++ spawnedGroups b :=
  List.filterMap_append

theorem spawnedForwards_append (a b : List Item) : spawnedForwards (a ++ b) = spawnedForwards a ++ spawnedForwards b :=
  List.filterMap_append

theorem exited_append (a b : List Item) (pid : Pid) : exited (a ++ b) pid = (exited a pid || exited b pid) :=
  List.any_append

theorem exited_outs (os : List Out) (pid : Pid) : exited (outsOf os) pid = false := by
  unfold exited
  rw [List.any_eq_false]
  intro x hx
  obtain ⟨o, _, rfl⟩ := mem_outsOf.mp hx
  simp [exitOf]

theorem exited_of_isExit {log : List Item} {pid : Pid} {y : Item} (hy : y ∈ log) (h : IsExit pid y) : exited log pid = true := by
  unfold exited
  rw [List.any_eq_true]
  refine ⟨y, hy, ?_⟩
  cases y with
  | out o => cases h
  | inp i => cases i <;> first | (cases h; done) | (have : _ = _ := h; subst this; simp [exitOf])

/-- Children are only added, each of them is logged. -/
def Grows (c c' : Core) : Prop :=
  ∃ os, c'.log = c.log ++ outsOf os ∧ c'.gs = c.gs ++ spawnedGroups (outsOf os) ∧ c'.fs = c.fs ++ spawnedForwards (outsOf os)

theorem Grows.refl (c : Core) : Grows c c := ⟨[], by simp [outsOf], by simp [outsOf, spawnedGroups], by simp [outsOf, spawnedForwards]⟩

theorem Grows.trans {a b c : Core} (h1 : Grows a b) (h2 : Grows b c) : Grows a c := by
  obtain ⟨o1, l1, g1, f1⟩ := h1
  obtain ⟨o2, l2, g2, f2⟩ := h2
  refine ⟨o1 ++ o2, ?_, ?_, ?_⟩
  · rw [l2, l1, List.append_assoc, outsOf_append]
  · rw [g2, g1, List.append_assoc, outsOf_append, spawnedGroups_append]
  · rw [f2, f1, List.append_assoc, outsOf_append, spawnedForwards_append]

theorem plain_no_spawn {os : List Out} (h : ∀ o ∈ os, Plain o) :
    spawnedGroups (outsOf os) = [] ∧ spawnedForwards (outsOf os) = [] := by
  constructor
  · unfold spawnedGroups
    rw [List.filterMap_eq_nil_iff]
    intro x hx
    obtain ⟨o, ho, rfl⟩ := mem_outsOf.mp hx
    have := h o ho
    cases o <;> first | rfl | cases this
  · unfold spawnedForwards
    rw [List.filterMap_eq_nil_iff]
    intro x hx
    obtain ⟨o, ho, rfl⟩ := mem_outsOf.mp hx
    have := h o ho
    cases o <;> first | rfl | cases this

theorem Grows.of_quiet {c c' : Core} (h : Quiet c c') : Grows c c' := by
  obtain ⟨os, hl, hp⟩ := h.log
  obtain ⟨e1, e2⟩ := plain_no_spawn hp
  refine ⟨os, hl, ?_, ?_⟩
  · rw [e1, List.append_nil]; unfold Core.gs; rw [h.groups]
  · rw [e2, List.append_nil]; unfold Core.fs; rw [h.forwards]

/-- Neither is anything spawned. -/
theorem Grows.same {c c' : Core} (hl : c'.log = c.log) (hg : c'.gs = c.gs) (hf : c'.fs = c.fs) : Grows c c' :=
  ⟨[], by simp [outsOf, hl], by simp [outsOf, spawnedGroups, hg], by simp [outsOf, spawnedForwards, hf]⟩

/-- The outputs that neither are spawns. -/
theorem Grows.emit (c : Core) (o : Out) (h : spawnedGroups [.out o] = []) (h' : spawnedForwards [.out o] = []) : Grows c (c.emit o) :=
  ⟨[o], rfl, by show c.gs = _; simp only [outsOf, List.map_cons, List.map_nil]; rw [h, List.append_nil],
    by show c.fs = _; simp only [outsOf, List.map_cons, List.map_nil]; rw [h', List.append_nil]⟩

theorem Grows.send (c : Core) (env : Env) (d : Ipc) (o : Out) (h : spawnedGroups [.out o] = []) (h' : spawnedForwards [.out o] = []) :
    Grows c (c.send env d o) := by
  unfold Core.send
  split
  · exact Grows.emit c o h h'
  · exact Grows.refl c

theorem Grows.foldl {α : Type} (f : Core → α → Core) (h : ∀ c x, Grows c (f c x)) :
    ∀ (l : List α) (c : Core), Grows c (l.foldl f c)
  | [], c => Grows.refl c
  | x :: xs, c => (h c x).trans (Grows.foldl f h xs (f c x))

theorem Grows.sendShutdown (c : Core) (env : Env) (p : Handle) : Grows c (c.sendShutdown env p) := by
  unfold Core.sendShutdown
  split
  · exact Grows.send c env _ _ rfl rfl
  · exact Grows.emit c _ rfl rfl

theorem foldl_fst_grows {α : Type} (f : Core × List Pid → α → Core × List Pid) (h : ∀ r x, Grows r.1 (f r x).1) :
    ∀ (l : List α) (r : Core × List Pid), Grows r.1 (l.foldl f r).1
  | [], r => Grows.refl r.1
  | x :: xs, r => (h r x).trans (foldl_fst_grows f h xs (f r x))

theorem Grows.act (env : Env) (a : TAct) (b : TBody) (c : Core) : Grows c (taskAct env a b c).1 := by
  cases a with
  | addGroups cfgs =>
    show Grows c (c.spawnGroups cfgs)
    unfold Core.spawnGroups
    refine Grows.foldl _ ?_ cfgs c
    intro c cfg
    exact ⟨[.spawnGroup c.nextPid cfg], rfl, by simp [Core.gs, outsOf, spawnedGroups], by simp [Core.fs, outsOf, spawnedForwards, Core.emit]⟩
  | addForwards cfgs =>
    show Grows c (c.spawnForwards cfgs)
    unfold Core.spawnForwards
    refine Grows.foldl _ ?_ cfgs c
    intro c cfg
    exact ⟨[.spawnForward c.nextPid cfg], rfl, by simp [Core.gs, outsOf, spawnedGroups, Core.emit], by simp [Core.fs, outsOf, spawnedForwards]⟩
  | rmGroups cfgs =>
    show Grows c (c.shutdownGroups env cfgs).1
    unfold Core.shutdownGroups
    dsimp only
    refine (Grows.foldl _ (fun c (g : Entity GroupCfg) => Grows.sendShutdown c env g.process) _ c).trans (Grows.same rfl ?_ rfl)
    show List.map _ (List.map _ _) = List.map _ _
    rw [(foldl_sendShutdown_groups env _ c).1, List.map_map]
    apply List.map_congr_left
    intro g _
    show (_, _) = _
    dsimp only [Function.comp]
    split <;> rfl
  | rmForwards cfgs =>
    show Grows c (c.shutdownForwards env cfgs).1
    unfold Core.shutdownForwards
    dsimp only
    refine (Grows.foldl _ (fun c (g : Entity FwdCfg) => Grows.sendShutdown c env g.process) _ c).trans (Grows.same rfl rfl ?_)
    show List.map _ (List.map _ _) = List.map _ _
    rw [(foldl_sendShutdown_groups env _ c).2, List.map_map]
    apply List.map_congr_left
    intro g _
    show (_, _) = _
    dsimp only [Function.comp]
    split <;> rfl
  | modGroups cfgs =>
    show Grows c (c.modifyGroups env cfgs).1
    unfold Core.modifyGroups
    refine foldl_fst_grows _ ?_ cfgs (c, [])
    intro r x
    split
    · exact Grows.send _ env _ _ rfl rfl
    · exact Grows.refl _
  | modForwards cfgs =>
    show Grows c (c.modifyForwards env cfgs).1
    unfold Core.modifyForwards
    refine foldl_fst_grows _ ?_ cfgs (c, [])
    intro r x
    split
    · exact Grows.send _ env _ _ rfl rfl
    · exact Grows.refl _
  | reply p corr => exact Grows.send c env _ _ rfl rfl

theorem growsKeeps (env : Env) : Keeps (taskOps env) Grows where
  refl := Grows.refl
  trans := Grows.trans
  act := Grows.act env
  handle := fun b m h hh c => by
    rw [taskHandle_fst (b := b) (m := m) hh c]
    exact Grows.refl c

theorem Grows.taskMsg (s : State) (env : Env) (m : TMsg) : Grows s.core (s.taskMsg env m).core :=
  (growsKeeps env).coordMsg m s.tasks s.core

theorem Grows.taskThen (s : State) (env : Env) (a : TAct) (k : TKind) : Grows s.core (s.taskThen env a k).core :=
  (growsKeeps env).coordThen _ s.tasks s.core

theorem Grows.thenIf {α : Type} (s : State) (env : Env) (l : List α) (a : List α → TAct) (k : TKind) :
    Grows s.core (s.thenIf env l a k).core := by
  unfold State.thenIf
  split
  · exact Grows.refl _
  · exact Grows.taskThen s env _ k

theorem Grows.conform (s : State) (env : Env) (current wanted : Model) : Grows s.core (s.conform env current wanted).core := by
  unfold State.conform
  dsimp only
  exact (Grows.thenIf s env _ _ _).trans ((Grows.thenIf _ env _ _ _).trans ((Grows.thenIf _ env _ _ _).trans
    ((Grows.thenIf _ env _ _ _).trans ((Grows.thenIf _ env _ _ _).trans (Grows.thenIf _ env _ _ _)))))

theorem Grows.configUpdate (s : State) (env : Env) (corr : Corr) (p : Handle) (dg : Nat) (wanted : Model) :
    Grows s.core (s.configUpdate env corr p dg wanted).core := by
  unfold State.configUpdate
  dsimp only
  refine Grows.trans (b := { s.core with domainGroups := dg }) (Grows.same rfl rfl rfl) ?_
  exact (Grows.conform { s with core := { s.core with domainGroups := dg } } env _ _).trans (Grows.taskThen _ env _ _)

theorem map_updateFirst {α β : Type} (p : α → Bool) (f : α → α) (k : α → β) (h : ∀ x, p x = true → k (f x) = k x) :
    ∀ l : List α, (updateFirst p f l).map k = l.map k
  | [] => rfl
  | x :: xs => by
    unfold updateFirst
    split
    · rename_i hp; rw [List.map_cons, List.map_cons, h x hp]
    · rw [List.map_cons, List.map_cons, map_updateFirst p f k h xs]

theorem Grows.groupConnect (c : Core) (env : Env) (p : Handle) : Grows c (c.groupConnect env p) := by
  unfold Core.groupConnect
  split
  · dsimp only
    refine Grows.trans (b := { c with groups := updateFirst (·.process.pid == p.pid) (fun g => { g with state := .connected, process := p }) c.groups })
      (Grows.same rfl ?_ rfl) (Grows.send _ env _ _ rfl rfl)
    exact map_updateFirst _ _ _ (fun g hg => by simp only [beq_iff_eq] at hg; rw [← hg]) _
  · exact Grows.refl c

theorem Grows.forwardConnect (c : Core) (env : Env) (p : Handle) : Grows c (c.forwardConnect env p) := by
  unfold Core.forwardConnect
  split
  · dsimp only
    refine Grows.trans (b := { c with forwards := updateFirst (·.process.pid == p.pid) (fun g => { g with state := .connected, process := p }) c.forwards })
      (Grows.same rfl rfl ?_) (Grows.send _ env _ _ rfl rfl)
    exact map_updateFirst _ _ _ (fun g hg => by simp only [beq_iff_eq] at hg; rw [← hg]) _
  · exact Grows.refl c

theorem Grows.forwardReply (c : Core) (p : Handle) : Grows c (c.forwardReply p) := by
  refine Grows.same rfl rfl ?_
  exact map_updateFirst _ (fun g : Entity FwdCfg => { g with state := .running }) _ (fun g hg => rfl) _

theorem Grows.updateGroup (c : Core) (p : Handle) (qs : List (Name × Int)) : Grows c (c.updateGroup p qs) := by
  obtain ⟨h1, h2⟩ := updateGroup_groups c p qs
  refine Grows.same h2 ?_ ?_
  · unfold Core.gs
    rw [h1]
    exact map_updateFirst _ (fun g : Entity GroupCfg => { g with state := .running }) _ (fun g hg => rfl) _
  · unfold Core.updateGroup
    dsimp only
    split <;> rfl

theorem Grows.updateAdvertise (c : Core) (a : Advertise) : Grows c (c.updateAdvertise a) := by
  obtain ⟨h1, h2⟩ := updateAdvertise_rest c a
  refine Grows.same h2 (by unfold Core.gs; rw [h1]) ?_
  unfold Core.updateAdvertise
  split
  · rfl
  · split <;> rfl
  · rfl

/-- Every step that is not an exit. -/
theorem Grows.step (s : State) (env : Env) (i : Input) (hi : exitOf (.inp i) = none) :
    Grows (s.core.logged i) (s.step (env, i)).core := by
  rw [step_eq]
  cases i with
  | lookup l => exact Grows.of_quiet (Quiet.lookupRequest _ env l)
  | discard corr p => exact Grows.of_quiet (Quiet.discardRequest _ env corr p)
  | discoveryLookup corr p scope names => exact Grows.send _ env _ _ rfl rfl
  | discoveryReply corr => exact Grows.of_quiet (Quiet.discoveryReply _ env corr)
  | fetchKnown corr p => exact Grows.send _ env _ _ rfl rfl
  | configRequest corr p => exact Grows.send _ env _ _ rfl rfl
  | idle => exact Grows.of_quiet (Quiet.idle _)
  | abort => exact Grows.of_quiet (Quiet.abort _ env)
  | configUpdate corr p dg wanted => exact Grows.configUpdate { s with core := s.core.logged _ } env corr p dg wanted
  | shutdown =>
    refine Grows.trans (b := ({ s.core.logged .shutdown with runlevel := .shutdown } : Core).discardAll env) ?_
      (Grows.conform ({ s with core := (({ s.core.logged .shutdown with runlevel := .shutdown } : Core).discardAll env) } : State) env _ {})
    exact Grows.trans (b := { s.core.logged .shutdown with runlevel := .shutdown }) (Grows.same rfl rfl rfl)
      (Grows.of_quiet (Quiet.discardAll _ env))
  | groupConnect p => exact (Grows.taskMsg { s with core := s.core.logged _ } env _).trans (Grows.groupConnect _ env p)
  | forwardConnect p => exact (Grows.taskMsg { s with core := s.core.logged _ } env _).trans (Grows.forwardConnect _ env p)
  | forwardReply p => exact (Grows.taskMsg { s with core := s.core.logged _ } env _).trans (Grows.forwardReply _ p)
  | groupReply p qs =>
    exact (Grows.taskMsg { s with core := s.core.logged _ } env _).trans ((Grows.updateGroup _ p qs).trans (Grows.of_quiet (Quiet.check _ env)))
  | advertise a => exact (Grows.updateAdvertise _ a).trans (Grows.of_quiet (Quiet.check _ env))
  | exitEvent pid => cases hi
  | childExit pid => cases hi
  | ipcDestroyed ipc => exact Grows.same rfl rfl rfl

theorem gs_remove (c : Core) (pid : Pid) : (c.remove pid).gs = c.gs.filter (fun p => !(p.1 == pid)) ∧
    (c.remove pid).fs = c.fs.filter (fun p => !(p.1 == pid)) ∧ (c.remove pid).log = c.log := by
  refine ⟨?_, ?_, rfl⟩
  · show List.map _ (List.filter _ _) = List.filter _ (List.map _ _)
    rw [List.filter_map]
    rfl
  · show List.map _ (List.filter _ _) = List.filter _ (List.map _ _)
    rw [List.filter_map]
    rfl

/-- The children are those that live. -/
def Alive (c : Core) : Prop := c.gs = liveGroups c.log ∧ c.fs = liveForwards c.log

theorem NoReuse.prefix {a b : List Item} (h : NoReuse (a ++ b)) : NoReuse a := by
  intro pre x post pid he hx
  obtain ⟨h1, h2⟩ := h pre x (post ++ b) pid (by rw [he]; simp) hx
  rw [spawnedGroups_append, List.map_append, List.mem_append] at h1
  rw [spawnedForwards_append, List.map_append, List.mem_append] at h2
  exact ⟨fun h => h1 (Or.inl h), fun h => h2 (Or.inl h)⟩

/-- What is spawned has not exited before. -/
theorem NoReuse.fresh {a b : List Item} (h : NoReuse (a ++ b)) {pid : Pid} (hx : exited a pid = true) :
    pid ∉ (spawnedGroups b).map (·.1) ∧ pid ∉ (spawnedForwards b).map (·.1) := by
  unfold exited at hx
  rw [List.any_eq_true] at hx
  obtain ⟨x, hx, he⟩ := hx
  obtain ⟨pre, post, rfl⟩ := List.append_of_mem hx
  obtain ⟨h1, h2⟩ := h pre x (post ++ b) pid (by simp) (by simpa using he)
  rw [spawnedGroups_append, List.map_append, List.mem_append] at h1
  rw [spawnedForwards_append, List.map_append, List.mem_append] at h2
  exact ⟨fun h => h1 (Or.inr h), fun h => h2 (Or.inr h)⟩

theorem spawnedGroups_inp (i : Input) : spawnedGroups [.inp i] = [] := rfl
theorem spawnedForwards_inp (i : Input) : spawnedForwards [.inp i] = [] := rfl

theorem filter_true' {α : Type} {p : α → Bool} {l : List α} (h : ∀ x ∈ l, p x = true) : l.filter p = l :=
  List.filter_eq_self.mpr h

/-- A step. -/
theorem step_alive {s : State} (h : Alive s.core) (env : Env) (i : Input) (hn : NoReuse (s.step (env, i)).core.log) :
    Alive (s.step (env, i)).core := by
  cases hx : exitOf (.inp i) with
  | none =>
    obtain ⟨os, hl, hg, hf⟩ := Grows.step s env i hx
    have hl' : (s.step (env, i)).core.log = (s.core.log ++ [.inp i]) ++ outsOf os := hl
    have hex : ∀ q, exited ((s.core.log ++ [.inp i]) ++ outsOf os) q = exited s.core.log q := by
      intro q
      rw [exited_append, exited_outs, Bool.or_false, exited_append]
      have : exited [.inp i] q = false := by simp [exited, hx]
      rw [this, Bool.or_false]
    rw [hl'] at hn
    unfold Alive liveGroups liveForwards
    rw [hl', hg, hf]
    constructor
    · rw [spawnedGroups_append, spawnedGroups_append, spawnedGroups_inp, List.append_nil, List.filter_append]
      congr 1
      · show s.core.gs = _
        rw [h.1]
        exact List.filter_congr (fun q _ => by rw [hex])
      · symm
        apply filter_true'
        intro q hq
        rw [hex]
        cases he : exited s.core.log q.1 with
        | false => rfl
        | true =>
          have hn' : NoReuse (s.core.log ++ ([.inp i] ++ outsOf os)) := by rw [← List.append_assoc]; exact hn
          have h2 := (hn'.fresh he).1
          rw [spawnedGroups_append, spawnedGroups_inp, List.nil_append] at h2
          exact absurd (List.mem_map.mpr ⟨q, hq, rfl⟩) h2
    · rw [spawnedForwards_append, spawnedForwards_append, spawnedForwards_inp, List.append_nil, List.filter_append]
      congr 1
      · show s.core.fs = _
        rw [h.2]
        exact List.filter_congr (fun q _ => by rw [hex])
      · symm
        apply filter_true'
        intro q hq
        rw [hex]
        cases he : exited s.core.log q.1 with
        | false => rfl
        | true =>
          have hn' : NoReuse (s.core.log ++ ([.inp i] ++ outsOf os)) := by rw [← List.append_assoc]; exact hn
          have h2 := (hn'.fresh he).2
          rw [spawnedForwards_append, spawnedForwards_inp, List.nil_append] at h2
          exact absurd (List.mem_map.mpr ⟨q, hq, rfl⟩) h2
  | some pid =>
    have hgr : ∃ c1, Grows (s.core.logged i) c1 ∧ (s.step (env, i)).core = c1.remove pid := by
      rw [step_eq]
      cases i with
      | exitEvent q =>
        injection hx with hx; subst hx
        exact ⟨_, Grows.taskMsg { s with core := s.core.logged _ } env (.exit q), rfl⟩
      | childExit q =>
        injection hx with hx; subst hx
        exact ⟨_, Grows.emit (s.core.logged _) (.exitEvent q) rfl rfl, rfl⟩
      | _ => cases hx
    obtain ⟨c1, ⟨os, hl, hg, hf⟩, hc⟩ := hgr
    obtain ⟨r1, r2, r3⟩ := gs_remove c1 pid
    rw [hc] at hn ⊢
    have hl' : (c1.remove pid).log = (s.core.log ++ [.inp i]) ++ outsOf os := by rw [r3, hl]; rfl
    rw [hl'] at hn
    have hex : ∀ q, exited ((s.core.log ++ [.inp i]) ++ outsOf os) q = (exited s.core.log q || (q == pid)) := by
      intro q
      rw [exited_append, exited_outs, Bool.or_false, exited_append]
      congr 1
      simp only [exited, List.any_cons, List.any_nil, Bool.or_false, hx]
      by_cases hq : q = pid
      · subst hq; simp
      · have : ¬ pid = q := fun e => hq e.symm
        have e1 : (some pid == some q) = false := beq_eq_false_iff_ne.mpr (fun e => this (Option.some.inj e))
        rw [e1]
        exact (beq_eq_false_iff_ne.mpr hq).symm
    have hnew : ∀ q, exited (s.core.log ++ [.inp i]) q = true → q ∉ (spawnedGroups (outsOf os)).map (·.1) ∧
        q ∉ (spawnedForwards (outsOf os)).map (·.1) := fun q hq => hn.fresh hq
    have hex' : ∀ q, exited (s.core.log ++ [.inp i]) q = (exited s.core.log q || (q == pid)) := by
      intro q
      have e := hex q
      rw [exited_append _ (outsOf os), exited_outs, Bool.or_false] at e
      exact e
    unfold Alive liveGroups liveForwards
    rw [hl', r1, r2, hg, hf]
    constructor
    · rw [spawnedGroups_append, spawnedGroups_append, spawnedGroups_inp, List.append_nil, List.filter_append, List.filter_append]
      congr 1
      · show s.core.gs.filter _ = _
        rw [h.1]
        unfold liveGroups
        rw [List.filter_filter]
        apply List.filter_congr
        intro q _
        rw [hex]
        cases exited s.core.log q.1 <;> cases (q.1 == pid) <;> rfl
      · apply List.filter_congr
        intro q hq
        rw [hex]
        have : ¬ exited (s.core.log ++ [.inp i]) q.1 = true := fun he => (hnew q.1 he).1 (List.mem_map.mpr ⟨q, hq, rfl⟩)
        rw [hex'] at this
        cases h1 : exited s.core.log q.1 <;> cases h2 : (q.1 == pid) <;> simp_all
    · rw [spawnedForwards_append, spawnedForwards_append, spawnedForwards_inp, List.append_nil, List.filter_append, List.filter_append]
      congr 1
      · show s.core.fs.filter _ = _
        rw [h.2]
        unfold liveForwards
        rw [List.filter_filter]
        apply List.filter_congr
        intro q _
        rw [hex]
        cases exited s.core.log q.1 <;> cases (q.1 == pid) <;> rfl
      · apply List.filter_congr
        intro q hq
        rw [hex]
        have : ¬ exited (s.core.log ++ [.inp i]) q.1 = true := fun he => (hnew q.1 he).2 (List.mem_map.mpr ⟨q, hq, rfl⟩)
        rw [hex'] at this
        cases h1 : exited s.core.log q.1 <;> cases h2 : (q.1 == pid) <;> simp_all

theorem init_alive (env : Env) (dg : Nat) (model : Model) (np : Pid) : Alive (State.init env dg model np).core := by
  obtain ⟨os, hl, hg, hf⟩ := Grows.conform ({ core := { domainGroups := dg, nextPid := np } } : State) env {} model
  have hl' : (State.init env dg model np).core.log = outsOf os := hl
  unfold Alive liveGroups liveForwards
  rw [hl']
  refine ⟨hg.trans ?_, hf.trans ?_⟩
  · show [] ++ _ = _
    rw [List.nil_append]
    exact (filter_true' (fun q _ => by rw [exited_outs]; rfl)).symm
  · show [] ++ _ = _
    rw [List.nil_append]
    exact (filter_true' (fun q _ => by rw [exited_outs]; rfl)).symm

end Casual.QManager
