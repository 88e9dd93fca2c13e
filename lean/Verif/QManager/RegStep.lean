import Verif.QManager.RegInv

/-! The registry invariant holds in every run. -/
namespace Casual.QManager

open Casual.Task

/-- The state with the input recorded. -/
def Core.logged (c : Core) (i : Input) : Core := { c with log := c.log ++ [.inp i] }

theorem step_eq (s : State) (env : Env) (i : Input) :
    s.step (env, i) = ({ s with core := s.core.logged i } : State).handle env i := rfl

theorem GInv.logged {c : Core} (h : GInv c.log c) (i : Input) : GInv (c.logged i).log (c.logged i) :=
  GInv.congr (h.more [.inp i] (fun _ _ hm => by cases List.mem_singleton.mp hm)) rfl

theorem configuredEnable_eq (cfg : GroupCfg) (n : Name) : enableOf cfg n = configuredEnable cfg n := by
  unfold enableOf configuredEnable
  cases cfg.queues.find? (·.name == n) <;> rfl

/-- An input that only reaches the tasks, and then something quiet. -/
theorem RInv.tasks {c c1 : Core} (h : RInv c) (i : Input) (hf : Framed (c.logged i) c1)
    (ha : ∀ a, i ≠ .advertise a) (hg : ∀ p q, i ≠ .groupReply p q) (hw : ∀ n p, ¬ Withdraws n p (.inp i)) : RInv c1 := by
  obtain ⟨os, hl, hgi⟩ := (h.g.logged i).framed hf
  refine ⟨?_, ?_⟩
  · rw [hl, hf.queues]
    show QInv (c.log ++ [.inp i] ++ outsOf os) c.queues
    rw [List.append_assoc]
    exact h.q.idle i os ha hg hw
  · rw [hl]; exact hgi

/-- Outputs neither offer nor withdraw. -/
theorem QInv.outs {qs : List (Name × List Inst)} : ∀ (os : List Out) {l : List Item}, QInv l qs → QInv (l ++ outsOf os) qs
  | [], l, h => by simpa [outsOf] using h
  | o :: os, l, h => by
    have h1 : QInv (l ++ Item.out o :: outsOf []) qs := by
      refine h.next _ [] h.shape h.sorted ?_ ?_ ?_ ?_
      · intro n j hj; exact Or.inl ⟨j, hj, ⟨rfl, rfl, rfl⟩, Or.inl rfl, not_withdraws_out⟩
      · intro n j hj _; exact ⟨j, hj, ⟨rfl, rfl, rfl⟩, fun _ => rfl, id⟩
      · intro a q he; cases he
      · intro p q n id he; cases he
    have := QInv.outs os h1
    have e : l ++ Item.out o :: outsOf [] ++ outsOf os = l ++ outsOf (o :: os) := by simp [outsOf]
    rw [e] at this
    exact this

/-- The registry and the groups after a quiet step. -/
theorem RInv.then_quiet {c c' : Core} (h : RInv c) (hq : Quiet c c') : RInv c' := by
  obtain ⟨os, hl, hgi⟩ := hq.ginv h.g
  refine ⟨?_, by rw [hl]; exact hgi⟩
  rw [hl, hq.queues]
  exact h.q.outs os

/-- And after tasks. -/
theorem RInv.framed {c c' : Core} (h : RInv c) (hf : Framed c c') : RInv c' := by
  obtain ⟨os, hl, hgi⟩ := h.g.framed hf
  refine ⟨?_, by rw [hl]; exact hgi⟩
  rw [hl, hf.queues]
  exact h.q.outs os

/-- The same groups, but for their lifetimes and ipc. -/
theorem RInv.groups {c c' : Core} (h : RInv c) (hq : c'.queues = c.queues) (hl : c'.log = c.log) (hg : GInv c.log c') : RInv c' :=
  ⟨by rw [hl, hq]; exact h.q, by rw [hl]; exact hg⟩

/-- A process exits. -/
theorem RInv.exit {c c1 : Core} (h : RInv c) (i : Input) (pid : Pid) (hi : i = .exitEvent pid ∨ i = .childExit pid)
    (os : List Out) (hl : c1.log = (c.logged i).log ++ outsOf os) (hq : c1.queues = c.queues)
    (hg : GInv ((c.logged i).log ++ outsOf os) c1) : RInv (c1.remove pid) := by
  refine ⟨?_, ?_⟩
  · show QInv c1.log (removeInsts c1.queues (fun i => i.process.pid == pid))
    rw [hl, hq]
    show QInv (c.log ++ [.inp i] ++ outsOf os) _
    rw [List.append_assoc]
    refine h.q.removed i os _ ?_ ?_ ?_ ?_
    · intro a q he; rcases hi with rfl | rfl <;> cases he
    · intro a q he; rcases hi with rfl | rfl <;> cases he
    · intro n j hj hw
      have hne : j.process.pid ≠ pid := by simpa using hj
      rcases hi with rfl | rfl <;> exact hne hw.symm
    · intro n j hj
      have he : j.process.pid = pid := by simpa using hj
      rcases hi with rfl | rfl <;> exact he.symm
  · show GInv c1.log (c1.remove pid)
    rw [hl]
    refine hg.remove pid ⟨.inp i, ?_, ?_⟩
    · exact List.mem_append.mpr (Or.inl (List.mem_append.mpr (Or.inr (List.mem_singleton.mpr rfl))))
    · rcases hi with rfl | rfl <;> exact rfl

/-- A group connects. -/
theorem RInv.groupConnect {c : Core} (h : RInv c) (env : Env) (p : Handle) (hc : Item.inp (.groupConnect p) ∈ c.log) :
    RInv (c.groupConnect env p) := by
  unfold Core.groupConnect
  split
  · dsimp only
    refine RInv.then_quiet ?_ (Quiet.send _ env _ _ trivial)
    refine h.groups rfl rfl (h.g.updated (fun g => g.process.pid == p.pid) (fun g => { g with state := .connected, process := p })
      rfl ?_ ?_)
    · intro g hg
      exact ⟨(by simpa using hg : g.process.pid = p.pid).symm, rfl⟩
    · intro g _ _
      exact Or.inr hc
  · exact h

theorem RInv.forwardConnect {c : Core} (h : RInv c) (env : Env) (p : Handle) : RInv (c.forwardConnect env p) := by
  unfold Core.forwardConnect
  split
  · dsimp only
    refine RInv.then_quiet ?_ (Quiet.send _ env _ _ trivial)
    exact h.groups rfl rfl (GInv.congr h.g rfl)
  · exact h

/-- The groups after a group has answered its configuration. -/
theorem updateGroup_groups (c : Core) (p : Handle) (qs : List (Name × Int)) :
    (c.updateGroup p qs).groups = updateFirst (·.process.pid == p.pid) (fun g => { g with state := .running }) c.groups ∧
    (c.updateGroup p qs).log = c.log := by
  unfold Core.updateGroup
  dsimp only
  split
  · rename_i hf
    refine ⟨?_, rfl⟩
    have hf' : c.groups.find? (·.process.pid == p.pid) = none := hf
    show c.groups = _
    rw [List.find?_eq_none] at hf'
    have : ∀ l : List (Entity GroupCfg), (∀ x ∈ l, ¬ (x.process.pid == p.pid) = true) →
        updateFirst (·.process.pid == p.pid) (fun g => { g with state := .running }) l = l := by
      intro l
      induction l with
      | nil => intro _; rfl
      | cons x xs ih =>
        intro hx
        unfold updateFirst
        rw [if_neg (hx x List.mem_cons_self), ih (fun y hy => hx y (List.mem_cons_of_mem _ hy))]
    exact (this _ hf').symm
  · exact ⟨rfl, rfl⟩

/-- A group answers its configuration. -/
theorem RInv.groupReply {c c1 : Core} (h : RInv c) (p : Handle) (qs : List (Name × Int))
    (hf : Framed (c.logged (.groupReply p qs)) c1) : RInv (c1.updateGroup p qs) := by
  obtain ⟨os, hl, hgi⟩ := (h.g.logged (.groupReply p qs)).framed hf
  have hl' : c1.log = c.log ++ .inp (.groupReply p qs) :: outsOf os := by rw [hl]; simp [Core.logged]
  have hq1 : c1.queues = c.queues := hf.queues
  have hs1 : Shape c1.queues := by rw [hq1]; exact h.q.shape
  obtain ⟨u1, u2, u3⟩ := updateGroup_spec hs1 p qs
  obtain ⟨e1, e2⟩ := updateGroup_groups c1 p qs
  have hgi' : GInv c1.log c1 := by rw [hl]; exact hgi
  have hback : ∀ q, ConnectedAs c1.log q → ConnectedAs c.log q := by
    intro q hq
    refine hq.imp id ?_
    intro hm
    rw [hl'] at hm
    rcases List.mem_append.mp hm with hm | hm
    · exact hm
    · rcases List.mem_cons.mp hm with hm | hm
      · injection hm with hm; cases hm
      · obtain ⟨o, _, ho⟩ := mem_outsOf.mp hm
        cases ho
  refine ⟨?_, ?_⟩
  · rw [e2, hl']
    refine h.q.next _ os u1 (u2 (by rw [hq1]; exact h.q.sorted)) ?_ ?_ ?_ ?_
    · intro n j hj
      rcases (u3 n j).mp hj with ⟨hj, hp⟩ | ⟨g, hg, hq, he⟩
      · rw [hq1] at hj
        exact Or.inl ⟨j, hj, ⟨rfl, rfl, rfl⟩, Or.inl rfl, fun hw => hp hw.symm⟩
      · refine Or.inr ⟨j, ?_, fun a he => (by cases he), ⟨rfl, rfl, rfl⟩, rfl⟩
        have hgm := List.mem_of_find?_eq_some hg
        have hgp : g.process.pid = p.pid := by simpa using List.find?_some hg
        refine Offers.group p qs n g.configuration j hq ?_ ?_ ?_ ?_
        · rw [he]; exact hgp
        · rw [he]; rfl
        · rw [← hl', ← hgp]; exact hgi'.spawned g hgm
        · rw [he]; exact configuredEnable_eq _ _
    · intro n j hj hw
      refine ⟨j, (u3 n j).mpr (Or.inl ⟨by rw [hq1]; exact hj, fun he => hw he.symm⟩), ⟨rfl, rfl, rfl⟩, fun _ => rfl, id⟩
    · intro a q he; cases he
    · intro p' qs' n id he hm hsp hx
      injection he with he
      injection he with he1 he2
      subst he1; subst he2
      obtain ⟨cfg, hsp⟩ := hsp
      have hxx : ∀ y ∈ c1.log, ¬ IsExit p.pid y := by
        intro y hy
        rw [hl'] at hy
        rcases List.mem_append.mp hy with hy | hy
        · exact hx y hy
        · rcases List.mem_cons.mp hy with rfl | hy
          · exact fun h => h
          · obtain ⟨o, _, rfl⟩ := mem_outsOf.mp hy
            exact fun h => h
      obtain ⟨g, hg, hgp⟩ := hgi'.known p.pid cfg (by rw [hl']; exact List.mem_append.mpr (Or.inl hsp)) hxx
      obtain ⟨y, hy1, hy2, hy3⟩ := find_some_of_mem (p := fun g : Entity GroupCfg => g.process.pid == p.pid) hg (by simpa using hgp)
      refine ⟨groupInst y (n, id), (u3 n _).mpr (Or.inr ⟨y, hy1, hm, rfl⟩), by simpa [groupInst] using hy3, rfl, ?_, ?_, rfl⟩
      · exact hback _ (hgi'.connected y hy2)
      · refine ⟨y.configuration, ?_, configuredEnable_eq _ _⟩
        have hyp : y.process.pid = p.pid := by simpa using hy3
        rw [← hl', ← hyp]
        exact hgi'.spawned y hy2
  · rw [e2]
    refine hgi'.updated (fun g => g.process.pid == p.pid) (fun g => { g with state := .running }) e1 (fun g _ => ⟨rfl, rfl⟩) ?_
    intro g hg _
    exact hgi'.connected g hg

theorem updateAdvertise_rest (c : Core) (a : Advertise) :
    (c.updateAdvertise a).groups = c.groups ∧ (c.updateAdvertise a).log = c.log := by
  unfold Core.updateAdvertise
  split
  · exact ⟨rfl, rfl⟩
  · split <;> exact ⟨rfl, rfl⟩
  · exact ⟨rfl, rfl⟩

/-- A remote advertises. -/
theorem RInv.advertise {c : Core} (h : RInv c) (a : Advertise) : RInv ((c.logged (.advertise a)).updateAdvertise a) := by
  obtain ⟨e1, e2⟩ := updateAdvertise_rest (c.logged (.advertise a)) a
  have hsh : Shape (c.logged (.advertise a)).queues := h.q.shape
  obtain ⟨s1, s2⟩ := updateAdvertise_shape hsh a
  refine ⟨?_, ?_⟩
  · rw [e2]
    show QInv (c.log ++ .inp (.advertise a) :: outsOf []) _
    refine h.q.next _ [] s1 (s2 h.q.sorted) ?_ ?_ ?_ ?_
    · intro n j hj
      cases hd : a.directive with
      | reset =>
        obtain ⟨hj, hp⟩ := (look_reset hsh hd n j).mp hj
        exact Or.inl ⟨j, hj, ⟨rfl, rfl, rfl⟩, Or.inl rfl, fun hw => hp hw.1.symm⟩
      | «instance» =>
        obtain ⟨i, hi, h1, h2, h3, h4⟩ := (look_instance hsh hd n).1 j hj
        refine Or.inl ⟨i, hi, ⟨h1.symm, h2.symm, h3.symm⟩, ?_, ?_⟩
        · rcases h4 with h4 | ⟨h4, h5⟩
          · exact Or.inl h4
          · exact Or.inr ⟨hd, h5, h4⟩
        · rintro ⟨_, hw | hw⟩
          · rw [hd] at hw; cases hw
          · rw [hd] at hw; cases hw.1
      | update =>
        obtain ⟨hj, hr⟩ := (look_update hsh hd n j).mp hj
        rcases hj with hj | ⟨q, hq, rfl, rfl⟩
        · refine Or.inl ⟨j, hj, ⟨rfl, rfl, rfl⟩, Or.inl rfl, ?_⟩
          rintro ⟨hip, hw | ⟨_, hw⟩⟩
          · rw [hd] at hw; cases hw
          · exact hr hw hip.symm
        · refine Or.inr ⟨remoteInst a q, Offers.remote a q _ hd hq rfl rfl rfl rfl, ?_, ⟨rfl, rfl, rfl⟩, rfl⟩
          intro a' he
          injection he with he
          injection he with he
          subst he
          exact fun hm => hr hm rfl
    · intro n j hj hw
      cases hd : a.directive with
      | reset =>
        refine ⟨j, (look_reset hsh hd n j).mpr ⟨hj, fun he => hw ⟨he.symm, Or.inl hd⟩⟩, ⟨rfl, rfl, rfl⟩, fun _ => rfl, id⟩
      | «instance» =>
        obtain ⟨k, hk, h1, h2, h3, h4, h5⟩ := (look_instance hsh hd n).2 j hj
        exact ⟨k, hk, ⟨h1, h2, h3⟩, fun hno => h4 (fun he => hno (a.order + 1) ⟨hd, he, rfl⟩), h5⟩
      | update =>
        refine ⟨j, (look_update hsh hd n j).mpr ⟨Or.inl hj, fun hm he => hw ⟨he.symm, Or.inr ⟨hd, hm⟩⟩⟩, ⟨rfl, rfl, rfl⟩, fun _ => rfl, id⟩
    · intro a' q he hd hq hn
      injection he with he
      injection he with he
      subst he
      exact ⟨remoteInst a q, (look_update hsh hd _ _).mpr ⟨Or.inr ⟨q, hq, rfl, rfl⟩, fun hm => absurd hm hn⟩, rfl, rfl, rfl⟩
    · intro p q n id he; injection he with he; cases he
  · rw [e2]
    exact GInv.congr (h.g.logged (.advertise a)) e1

theorem step_rinv {s : State} (h : RInv s.core) (env : Env) (i : Input) : RInv (s.step (env, i)).core := by
  rw [step_eq]
  cases i with
  | lookup l =>
    exact h.quiet _ (Quiet.lookupRequest _ env l) (fun _ h => by cases h) (fun _ _ h => by cases h) (fun _ _ h => h)
  | discard corr p =>
    exact h.quiet _ (Quiet.discardRequest _ env corr p) (fun _ h => by cases h) (fun _ _ h => by cases h) (fun _ _ h => h)
  | discoveryLookup corr p scope names =>
    exact h.quiet _ (Quiet.send _ env _ _ trivial) (fun _ h => by cases h) (fun _ _ h => by cases h)
      (fun _ _ h => h)
  | discoveryReply corr =>
    exact h.quiet _ (Quiet.discoveryReply _ env corr) (fun _ h => by cases h) (fun _ _ h => by cases h) (fun _ _ h => h)
  | fetchKnown corr p =>
    exact h.quiet _ (Quiet.send _ env _ _ trivial) (fun _ h => by cases h) (fun _ _ h => by cases h)
      (fun _ _ h => h)
  | configRequest corr p =>
    exact h.quiet _ (Quiet.send _ env _ _ trivial) (fun _ h => by cases h) (fun _ _ h => by cases h)
      (fun _ _ h => h)
  | idle => exact h.quiet _ (Quiet.idle _) (fun _ h => by cases h) (fun _ _ h => by cases h) (fun _ _ h => h)
  | abort => exact h.quiet _ (Quiet.abort _ env) (fun _ h => by cases h) (fun _ _ h => by cases h) (fun _ _ h => h)
  | configUpdate corr p dg wanted =>
    have hf := Framed.configUpdate { s with core := s.core.logged (.configUpdate corr p dg wanted) } env corr p dg wanted
    have h' : RInv { s.core with domainGroups := dg } := h.groups rfl rfl (GInv.congr h.g rfl)
    exact h'.tasks (.configUpdate corr p dg wanted) hf (fun _ h => by cases h) (fun _ _ h => by cases h) (fun _ _ h => h)
  | shutdown =>
    have h1 : RInv (({ s.core.logged .shutdown with runlevel := .shutdown } : Core).discardAll env) := by
      refine h.quiet .shutdown (Quiet.trans (b := { s.core.logged .shutdown with runlevel := .shutdown }) ?_
        (Quiet.discardAll _ env)) (fun _ h => by cases h) (fun _ _ h => by cases h) (fun _ _ h => h)
      exact ⟨rfl, rfl, rfl, [], by simp [outsOf, Core.logged], by simp⟩
    exact h1.framed (Framed.conform ({ s with core := (({ s.core.logged .shutdown with runlevel := .shutdown } : Core).discardAll env) } : State)
      env _ {})
  | groupConnect p =>
    have hf := Framed.taskMsg { s with core := s.core.logged (.groupConnect p) } env (.groupConnect p.pid)
    have h1 := h.tasks (.groupConnect p) hf (fun _ h => by cases h) (fun _ _ h => by cases h) (fun _ _ h => h)
    refine h1.groupConnect env p ?_
    obtain ⟨os, hl, _⟩ := hf.log
    rw [hl]
    exact List.mem_append.mpr (Or.inl (List.mem_append.mpr (Or.inr (List.mem_singleton.mpr rfl))))
  | forwardConnect p =>
    have hf := Framed.taskMsg { s with core := s.core.logged (.forwardConnect p) } env (.forwardConnect p.pid)
    exact (h.tasks (.forwardConnect p) hf (fun _ h => by cases h) (fun _ _ h => by cases h) (fun _ _ h => h)).forwardConnect env p
  | forwardReply p =>
    have hf := Framed.taskMsg { s with core := s.core.logged (.forwardReply p) } env (.forwardReply p.pid)
    have h1 := h.tasks (.forwardReply p) hf (fun _ h => by cases h) (fun _ _ h => by cases h) (fun _ _ h => h)
    exact h1.groups rfl rfl (GInv.congr h1.g rfl)
  | groupReply p qs =>
    have hf := Framed.taskMsg { s with core := s.core.logged (.groupReply p qs) } env (.groupReply p.pid)
    exact (h.groupReply p qs hf).then_quiet (Quiet.check _ env)
  | advertise a => exact (h.advertise a).then_quiet (Quiet.check _ env)
  | exitEvent pid =>
    have hf := Framed.taskMsg { s with core := s.core.logged (.exitEvent pid) } env (.exit pid)
    obtain ⟨os, hl, hgi⟩ := (h.g.logged (.exitEvent pid)).framed hf
    exact h.exit (.exitEvent pid) pid (Or.inl rfl) os hl hf.queues hgi
  | childExit pid =>
    refine h.exit (c1 := (s.core.logged (.childExit pid)).emit (.exitEvent pid)) (.childExit pid) pid (Or.inr rfl)
      [.exitEvent pid] rfl rfl ?_
    exact GInv.congr ((h.g.logged (.childExit pid)).more _ (fun _ _ hm => by cases List.mem_singleton.mp hm)) rfl
  | ipcDestroyed ipc =>
    refine ⟨?_, ?_⟩
    · show QInv (s.core.log ++ .inp (.ipcDestroyed ipc) :: outsOf []) (removeInsts s.core.queues (fun i => i.process.ipc == ipc))
      refine h.q.removed (.ipcDestroyed ipc) [] _ (fun _ _ h => by cases h) (fun _ _ h => by cases h) ?_ ?_
      · intro n j hj hw
        have hne : j.process.ipc ≠ ipc := by simpa using hj
        exact hne hw.symm
      · intro n j hj
        have he : j.process.ipc = ipc := by simpa using hj
        exact he.symm
    · exact GInv.congr (h.g.logged (.ipcDestroyed ipc)) rfl

theorem init_rinv (env : Env) (dg : Nat) (model : Model) (np : Pid) : RInv (State.init env dg model np).core := by
  have h0 : RInv ({ domainGroups := dg, nextPid := np } : Core) := by
    refine ⟨⟨⟨List.nodup_nil, fun _ h => (by cases h)⟩, fun n => List.Pairwise.nil, fun n j hj => (by cases hj), ?_, ?_⟩,
      ⟨fun _ h => (by cases h), fun _ h => (by cases h), fun _ _ h => (by cases h)⟩⟩
    · intro pre a post q he
      cases pre <;> cases he
    · intro pre a qs post n id he
      cases pre <;> cases he
  exact h0.framed (Framed.conform ({ core := { domainGroups := dg, nextPid := np } } : State) env {} model)

theorem foldl_step_rinv : ∀ (xs : List (Env × Input)) (s : State), RInv s.core → RInv (xs.foldl State.step s).core
  | [], _, h => h
  | x :: xs, s, h => foldl_step_rinv xs (s.step x) (step_rinv h x.1 x.2)

/-- The registry invariant, in every run. -/
theorem run_rinv (env : Env) (dg : Nat) (model : Model) (np : Pid) (xs : List (Env × Input)) :
    RInv (State.run env dg model np xs).core :=
  foldl_step_rinv xs _ (init_rinv env dg model np)

end Casual.QManager
