import Verif.DManager.Down
import Verif.DManager.Demo

/-! The shutdown of a domain. -/
namespace Casual.DManager

/-- An idle domain, that is up. -/
structure Ready (lib : Lib) (u : Setup) (is : List Input) : Prop where
  sort : StableSort lib.sort
  proper : u.Proper
  pids : UniquePids u.self.pid ((State.start lib u).run lib is).st.log
  idle : ((State.start lib u).run lib is).idle
  up : ((State.start lib u).run lib is).stopped = false

theorem Ready.once {lib : Lib} {u : Setup} {is : List Input} (h : Ready lib u is) :
    (((State.start lib u).run lib is).st.entities.map (·.id)).Nodup ∧
    ∀ p, p ≠ 0 → occ ((State.start lib u).run lib is).st.entities p ≤ 1 := by
  have := uinv_run (pm := u.self.pid) lib is _ (start_uinv lib h.proper)
  exact ⟨this.ids, this.once h.pids⟩

theorem Ready.downing {lib : Lib} {u : Setup} {is : List Input} (h : Ready lib u is) (js : List Input)
    (hj : ∀ j ∈ js, j.patient = true) :
    Downing (((State.start lib u).run lib is).st.stopOrder lib) ((State.start lib u).run lib is).st.manager
      (UpAt ((State.start lib u).run lib is).st) (((State.start lib u).run lib is).st.log ++ [.inp .shutdown])
      ((((State.start lib u).run lib is).input lib .shutdown).run lib js) := by
  obtain ⟨h1, h2⟩ := h.once
  obtain ⟨h3, h4⟩ := apart_stop (lib := lib) h.sort h1
  exact downing_run h3 (known_up h2) h4 js _ hj (start_downing h.sort h.idle.1 h.idle.2 h1 h2 h.up)

theorem Ready.notMe {lib : Lib} {u : Setup} {is : List Input} (h : Ready lib u is) {i : Nat} {e : EId}
    (hi : At (((State.start lib u).run lib is).st.stopOrder lib) i e) : e ≠ ((State.start lib u).run lib is).st.manager := by
  obtain ⟨b, h1, h2⟩ := hi
  exact (apart_stop (lib := lib) h.sort h.once.1).2 b (List.mem_of_getElem? h1) e h2

/-- The log of a shutdown. -/
theorem Downing.order {bs : List Batch} {m : EId} {U : EId → Handle → Prop} {L0 : List Item} {s : State} (h : Downing bs m U L0 s) :
    ∃ l, s.st.log = L0 ++ l ∧ (Answers l → Always (Ordered bs U) l) := by
  rcases h with ⟨⟨_, l, h1, _, h2⟩, _⟩ | ⟨pre, b, post, g, gs, _, _, _, _, ⟨_, l, h5, _⟩, _⟩
  · exact ⟨l, h1, h2⟩
  · exact ⟨l, h5.log, h5.order⟩

/-- A domain that is idle is asked to shut down, and nothing else is asked of it.  When something is done to stop a process - the
service manager is asked to prepare it, it is asked to shut down, or it gets a signal - all processes that were up, of the entities in the
batches to be stopped before its own, have exited. -/
theorem shutdown_in_order (lib : Lib) (u : Setup) (is js : List Input) (hr : Ready lib u is)
    (hj : ∀ j ∈ js, j.patient = true) {l l1 l2 : List Item} {a : Item}
    (hl : ((((State.start lib u).run lib is).input lib .shutdown).run lib js).st.log =
      ((State.start lib u).run lib is).st.log ++ .inp .shutdown :: l) (ha : Answers l) (hs : l = l1 ++ a :: l2)
    {e e' : EId} {h h' : Handle} {i k : Nat} (he : Up ((State.start lib u).run lib is).st e h)
    (he' : Up ((State.start lib u).run lib is).st e' h')
    (hi : At (((State.start lib u).run lib is).st.stopOrder lib) i e')
    (hk : At (((State.start lib u).run lib is).st.stopOrder lib) k e) (hik : i < k) (hst : a.stops h.pid) :
    .inp (.exit h'.pid) ∈ l1 := by
  obtain ⟨l', h1, h2⟩ := (hr.downing js hj).order
  have : l' = l := by
    rw [hl] at h1
    simpa using h1.symm
  subst this
  exact h2 ha l1 a l2 hs e h ⟨hr.notMe hk, he⟩ hst e' h' ⟨hr.notMe hi, he'⟩ ⟨i, k, hik, hi, hk⟩

/-- The domain manager does not end before they have: when it has, every process that was up has exited. -/
theorem shutdown_leaves_none (lib : Lib) (u : Setup) (is js : List Input) (hr : Ready lib u is)
    (hj : ∀ j ∈ js, j.patient = true)
    (hst : ((((State.start lib u).run lib is).input lib .shutdown).run lib js).stopped = true)
    {e : EId} {h : Handle} {i : Nat} (he : Up ((State.start lib u).run lib is).st e h)
    (hi : At (((State.start lib u).run lib is).st.stopOrder lib) i e) :
    ∃ l, ((((State.start lib u).run lib is).input lib .shutdown).run lib js).st.log =
      ((State.start lib u).run lib is).st.log ++ .inp .shutdown :: l ∧ .inp (.exit h.pid) ∈ l := by
  have hd := hr.downing js hj
  have hc : ((((State.start lib u).run lib is).input lib .shutdown).run lib js).conts = [] := by
    unfold State.stopped at hst
    simp only [Bool.and_eq_true, List.isEmpty_iff] at hst
    exact hst.2
  rcases hd with ⟨⟨_, l, h1, h2, _⟩, _⟩ | ⟨pre, b, post, g, gs, _, h2, _⟩
  · exact ⟨l, by rw [h1]; simp, h2 e h i ⟨hr.notMe hi, he⟩ hi⟩
  · rw [hc] at h2; cases h2

/-- A shutdown does not get stuck: as long as the domain manager has not ended, there is a process that was up, that has
not exited, and that it does something about. -/
theorem shutdown_progress (lib : Lib) (u : Setup) (is js : List Input) (hr : Ready lib u is)
    (hj : ∀ j ∈ js, j.patient = true)
    (hst : ((((State.start lib u).run lib is).input lib .shutdown).run lib js).stopped = false) :
    ∃ l, ((((State.start lib u).run lib is).input lib .shutdown).run lib js).st.log =
      ((State.start lib u).run lib is).st.log ++ .inp .shutdown :: l ∧
      ∃ e h, Up ((State.start lib u).run lib is).st e h ∧ .inp (.exit h.pid) ∉ l ∧ ∃ a ∈ l, a.stops h.pid := by
  have hd := hr.downing js hj
  rcases hd with ⟨ho, hc⟩ | ⟨pre, b, post, g, gs, h1, h2, _, _, ⟨_, l, h5, h6⟩, h7⟩
  · have := Downing.over_stopped ho (hc rfl)
    rw [hst] at this
    cases this
  · refine ⟨l, by rw [h5.log]; simp, ?_⟩
    unfold Core.settled at h7
    obtain ⟨e, he, h8⟩ := List.all_eq_false.1 h7
    split at h8
    · rename_i x hx
      have hid := find_id hx
      simp only [Bool.not_eq_true] at h8
      obtain ⟨i, hi, h9⟩ := List.all_eq_false.1 h8
      have hm : x.id ≠ ((State.start lib u).run lib is).st.manager := by
        rw [hid]
        exact hr.notMe (at_mid h1 he)
      obtain ⟨_, q2, q3⟩ := h5.all x (find_mem hx) hm i hi
      exact ⟨x.id, i.handle, q2.2, q3, h6 e he x (find_mem hx) hid i hi⟩
    · exact absurd rfl h8

theorem run_logged (lib : Lib) : ∀ (js : List Input) (s : State), (s.run lib js).stopped = false →
    s.stopped = false ∧ ∃ ext, (s.run lib js).st.log = s.st.log ++ ext ∧ ∀ j ∈ js, .inp j ∈ ext
  | [], s, h => ⟨h, [], (List.append_nil _).symm, by simp⟩
  | j :: js, s, h => by
    obtain ⟨h1, ext, h2, h3⟩ := run_logged lib js (s.input lib j) h
    have hs : s.stopped = false := by
      cases hc : s.stopped with
      | false => rfl
      | true =>
        rw [input_stopped lib s j hc, hc] at h1
        cases h1
    obtain ⟨ext', h4, _⟩ := input_outs lib s j hs
    refine ⟨hs, .inp j :: ext' ++ ext, ?_, ?_⟩
    · show ((s.input lib j).run lib js).st.log = _
      rw [h2, h4, List.append_assoc]
    · intro x hx
      rcases List.mem_cons.1 hx with rfl | hx
      · simp
      · exact List.mem_append_right _ (h3 x hx)

/-- When all that was up has exited, the domain manager has ended. -/
theorem shutdown_completes (lib : Lib) (u : Setup) (is js : List Input) (hr : Ready lib u is)
    (hj : ∀ j ∈ js, j.patient = true)
    (hx : ∀ e h, Up ((State.start lib u).run lib is).st e h → e ≠ ((State.start lib u).run lib is).st.manager → .exit h.pid ∈ js) :
    ((((State.start lib u).run lib is).input lib .shutdown).run lib js).stopped = true := by
  cases hst : ((((State.start lib u).run lib is).input lib .shutdown).run lib js).stopped with
  | true => rfl
  | false =>
    exfalso
    have hd := hr.downing js hj
    obtain ⟨hs0, ext, h8, h9⟩ := run_logged lib js _ hst
    obtain ⟨ext0, h10, _⟩ := input_outs lib ((State.start lib u).run lib is) .shutdown hr.up
    rcases hd with ⟨ho, hc⟩ | ⟨pre, b, post, g, gs, h1, h2, _, _, ⟨_, l, h5, h6⟩, h7⟩
    · have := Downing.over_stopped ho (hc rfl)
      rw [hst] at this
      cases this
    · have hl : l = ext0 ++ ext := by
        have := h5.log
        rw [h8, h10] at this
        simpa using this.symm
      unfold Core.settled at h7
      obtain ⟨e, he, h8⟩ := List.all_eq_false.1 h7
      split at h8
      · rename_i x hx'
        have hid := find_id hx'
        simp only [Bool.not_eq_true] at h8
        obtain ⟨i, hi, _⟩ := List.all_eq_false.1 h8
        have hm : x.id ≠ ((State.start lib u).run lib is).st.manager := by
          rw [hid]
          exact hr.notMe (at_mid h1 he)
        obtain ⟨_, q2, q3⟩ := h5.all x (find_mem hx') hm i hi
        exact q3 (by rw [hl]; exact List.mem_append_right _ (h9 _ (hx _ _ q2.2 hm)))
      · exact absurd rfl h8

/-! ### Examples -/

/-- The pids that processes got. -/
def spawnedPids (log : List Item) : List Pid := log.filterMap fun
  | .spawned _ p => some p
  | _ => none

theorem unique_of_nodup {pm : Pid} {log : List Item} (h : (spawnedPids log).Nodup) (h0 : ∀ p ∈ spawnedPids log, p ≠ 0 ∧ p ≠ pm) :
    UniquePids pm log := by
  intro l1 a l2 hl
  subst hl
  cases a <;> try trivial
  rename_i e p
  have hs : spawnedPids (l1 ++ .spawned e p :: l2) = spawnedPids l1 ++ p :: spawnedPids l2 := by
    unfold spawnedPids
    rw [List.filterMap_append, List.filterMap_cons]
  rw [hs] at h h0
  have h1 := h0 p (by simp)
  refine ⟨h1.1, h1.2, ?_⟩
  rintro e' ⟨x, y, hxy, _⟩
  have : p ∈ spawnedPids l1 := List.mem_filterMap.2 ⟨.spawned e' p, by rw [hxy]; simp, rfl⟩
  rw [List.nodup_append] at h
  exact h.2.2 p this p List.mem_cons_self rfl

/-- Two batches: a server with two processes and an executable, and a server. -/
def downEntities : List Entity := [demoServer 1 6 false 2, demoServer 2 7 false 1, demoExe 1 6 true 1]

def downBoot : List Input :=
  [.own, .own, .connect ⟨100, 1100⟩ 0 false, .connect ⟨101, 1101⟩ 0 false, .own, .connect ⟨103, 1103⟩ 0 false]

/-- The hypotheses hold. -/
example : Ready demoLib (demoSetup downEntities) downBoot :=
  ⟨libstdcxxSort_stable, by
    refine ⟨by decide +kernel, by decide +kernel⟩, unique_of_nodup (by decide +kernel) (by decide +kernel),
    ⟨by
      have : ((State.start demoLib (demoSetup downEntities)).run demoLib downBoot).conts.length = 0 := by decide +kernel
      exact List.length_eq_zero_iff.1 this, by decide +kernel⟩, by decide +kernel⟩

example : (demoRun downEntities downBoot).st.stopOrder demoLib =
    [⟨7, [⟨.server, 2⟩]⟩, ⟨6, [⟨.server, 1⟩, ⟨.executable, 1⟩]⟩] := by decide +kernel

/-- The shutdown: first the process of the second group, then those of the first. -/
example : (demoRun downEntities (downBoot ++ [.shutdown, .own, .exit 103, .own, .exit 100, .exit 101, .exit 102])).st.log =
    (demoRun downEntities downBoot).st.log ++
      [.inp .shutdown, .prepareOwn [⟨103, 1103⟩], .inp .own, .shutdownReq ⟨103, 1103⟩, .inp (.exit 103), .scaled [⟨.server, 2⟩],
        .prepareOwn [⟨101, 1101⟩, ⟨100, 1100⟩], .terminate 102, .inp .own, .shutdownReq ⟨101, 1101⟩, .shutdownReq ⟨100, 1100⟩,
        .inp (.exit 100), .inp (.exit 101), .inp (.exit 102), .scaled [⟨.server, 1⟩, ⟨.executable, 1⟩], .done 0] ∧
    (demoRun downEntities (downBoot ++ [.shutdown, .own, .exit 103, .own, .exit 100, .exit 101, .exit 102])).stopped = true := by
  decide +kernel

/-! ### What does not hold -/

/-- A domain as the configuration gives it, on a system that does not give a pid twice. -/
structure Sane (lib : Lib) (u : Setup) (is : List Input) : Prop where
  sort : StableSort lib.sort
  proper : u.Proper
  pids : UniquePids u.self.pid ((State.start lib u).run lib is).st.log

theorem not_alive {log : List Item} {p : Pid} {e : EId} (a b : List Item) (hl : log = a ++ .inp (.exit p) :: b)
    (hb : p ∉ spawnedPids b) : ¬ Alive log e p := by
  rintro ⟨x, y, hxy, hn⟩
  rw [hl] at hxy
  rcases split_append hxy with ⟨b', _, rfl⟩ | ⟨a', h1, _⟩
  · exact hn (by simp)
  · cases a' with
    | nil => simp at h1
    | cons z a' =>
      simp only [List.cons_append, List.cons.injEq] at h1
      exact hb (List.mem_filterMap.2 ⟨.spawned e p, by rw [h1.2]; simp, rfl⟩)

theorem alive_spawned {log : List Item} {p : Pid} {e : EId} (h : Alive log e p) : p ∈ spawnedPids log := by
  obtain ⟨a, b, h, _⟩ := h
  exact List.mem_filterMap.2 ⟨.spawned e p, by rw [h]; simp, rfl⟩

/-- The full property: when a shutdown has been asked for, no process is left and nothing waits in the domain manager's own
queue, the domain manager has ended. -/
def ShutdownEnds : Prop :=
  ∀ (lib : Lib) (u : Setup) (is : List Input), Sane lib u is → .inp .shutdown ∈ ((State.start lib u).run lib is).st.log →
    (∀ e p, ¬ Alive ((State.start lib u).run lib is).st.log e p) → ((State.start lib u).run lib is).st.own = [] →
    ((State.start lib u).run lib is).stopped = true

/-- It does not hold when a restart is going on: the shutdown keeps the task (`Coordinator::cancel` leaves the first group
there), which waits for processes to be spawned and to connect, and none are. -/
theorem shutdown_in_restart_refuted : ¬ ShutdownEnds := by
  intro h
  have := h demoLib (demoSetup [demoServer 1 6 false 2])
    [.own, .connect ⟨100, 1100⟩ 0 false, .connect ⟨101, 1101⟩ 0 false, .restartAliases [1], .shutdown, .own, .exit 101, .exit 100]
    ⟨libstdcxxSort_stable, ⟨by decide +kernel, by decide +kernel⟩, unique_of_nodup (by decide +kernel) (by decide +kernel)⟩
    (by decide +kernel) (by
      intro e p ha
      have hp := alive_spawned ha
      have hl : ((State.start demoLib (demoSetup [demoServer 1 6 false 2])).run demoLib
          [.own, .connect ⟨100, 1100⟩ 0 false, .connect ⟨101, 1101⟩ 0 false, .restartAliases [1], .shutdown, .own, .exit 101,
            .exit 100]).st.log =
          [.spawned ⟨.server, 1⟩ 100, .spawned ⟨.server, 1⟩ 101, .inp .own, .inp (.connect ⟨100, 1100⟩ 0 false),
            .admitted ⟨100, 1100⟩ 0 false, .approved ⟨100, 1100⟩ 0, .inp (.connect ⟨101, 1101⟩ 0 false),
            .admitted ⟨101, 1101⟩ 0 false, .scaled [⟨.server, 1⟩], .bootDone, .approved ⟨101, 1101⟩ 0,
            .inp (.restartAliases [1]), .prepareOwn [⟨101, 1101⟩], .inp .shutdown, .inp .own, .shutdownReq ⟨101, 1101⟩] ++
          .inp (.exit 101) :: [.inp (.exit 100)] := by decide +kernel
      rw [hl] at hp ha
      have : p = 100 ∨ p = 101 := by simpa [spawnedPids] using hp
      rcases this with rfl | rfl
      · exact not_alive (log := [.spawned ⟨.server, 1⟩ 100, .spawned ⟨.server, 1⟩ 101, .inp .own, .inp (.connect ⟨100, 1100⟩ 0 false),
            .admitted ⟨100, 1100⟩ 0 false, .approved ⟨100, 1100⟩ 0, .inp (.connect ⟨101, 1101⟩ 0 false),
            .admitted ⟨101, 1101⟩ 0 false, .scaled [⟨.server, 1⟩], .bootDone, .approved ⟨101, 1101⟩ 0,
            .inp (.restartAliases [1]), .prepareOwn [⟨101, 1101⟩], .inp .shutdown, .inp .own, .shutdownReq ⟨101, 1101⟩] ++
          .inp (.exit 101) :: [.inp (.exit 100)]) ([.spawned ⟨.server, 1⟩ 100, .spawned ⟨.server, 1⟩ 101, .inp .own,
            .inp (.connect ⟨100, 1100⟩ 0 false),
            .admitted ⟨100, 1100⟩ 0 false, .approved ⟨100, 1100⟩ 0, .inp (.connect ⟨101, 1101⟩ 0 false),
            .admitted ⟨101, 1101⟩ 0 false, .scaled [⟨.server, 1⟩], .bootDone, .approved ⟨101, 1101⟩ 0,
            .inp (.restartAliases [1]), .prepareOwn [⟨101, 1101⟩], .inp .shutdown, .inp .own, .shutdownReq ⟨101, 1101⟩,
            .inp (.exit 101)]) [] rfl (by decide) ha
      · exact not_alive _ _ rfl (by decide) ha)
    (by decide +kernel)
  revert this
  decide +kernel

/-- The full property: in a shutdown, as long as the domain manager has not ended and nothing waits in its own queue, it has done
something about a process that is alive. -/
def ShutdownMoves : Prop :=
  ∀ (lib : Lib) (u : Setup) (is js : List Input), Sane lib u (is ++ .shutdown :: js) → (∀ j ∈ js, j.patient = true) →
    ((State.start lib u).run lib (is ++ .shutdown :: js)).stopped = false →
    ((State.start lib u).run lib (is ++ .shutdown :: js)).st.own = [] →
    ∃ a ∈ ((State.start lib u).run lib (is ++ .shutdown :: js)).st.log, ∃ p, a.stops p

theorem stops_none {log : List Item} (h : log.all (fun a => match a with
    | .terminate _ | .prepare _ | .prepareOwn _ | .shutdownReq _ => false
    | _ => true) = true) : ∀ a ∈ log, ∀ p, ¬ a.stops p := by
  intro a ha p hs
  have := List.all_eq_true.1 h a ha
  cases a <;> first | exact hs | cases this

/-- It does not hold when the shutdown comes while the domain boots: the first batch is kept as it is,
waits for its processes to exit and nobody tells them to. -/
theorem shutdown_in_boot_refuted : ¬ ShutdownMoves := by
  intro h
  obtain ⟨a, ha, p, hp⟩ := h demoLib (demoSetup [demoServer 1 6 false 2, demoServer 2 7 false 1])
    [.own, .connect ⟨100, 1100⟩ 0 false] []
    ⟨libstdcxxSort_stable, ⟨by decide +kernel, by decide +kernel⟩, unique_of_nodup (by decide +kernel) (by decide +kernel)⟩
    (by simp) (by decide +kernel) (by decide +kernel)
  exact stops_none (by decide +kernel) a ha p hp

/-- The full property: when the domain manager has ended, all processes it has spawned have exited. -/
def ShutdownLeavesNone : Prop :=
  ∀ (lib : Lib) (u : Setup) (is : List Input), Sane lib u is → ((State.start lib u).run lib is).stopped = true →
    ∀ e p, ¬ Alive ((State.start lib u).run lib is).st.log e p

/-- It does not hold: a server process that has been spawned and has not connected is forgotten at once (`state.cpp:133-138`:
its instance is not running, so it counts as gone). -/
theorem shutdown_forgets_unconnected_refuted : ¬ ShutdownLeavesNone := by
  intro h
  refine h demoLib (demoSetup [demoServer 1 6 true 1]) [.own, .connect ⟨100, 1100⟩ 0 false, .exit 100, .own, .shutdown]
    ⟨libstdcxxSort_stable, ⟨by decide +kernel, by decide +kernel⟩, unique_of_nodup (by decide +kernel) (by decide +kernel)⟩
    (by decide +kernel) ⟨.server, 1⟩ 101 ?_
  refine ⟨[.spawned ⟨.server, 1⟩ 100, .inp .own, .inp (.connect ⟨100, 1100⟩ 0 false), .admitted ⟨100, 1100⟩ 0 false,
    .scaled [⟨.server, 1⟩], .bootDone, .approved ⟨100, 1100⟩ 0, .inp (.exit 100)],
    [.inp .own, .inp .shutdown, .scaled [⟨.server, 1⟩], .done 0], by decide +kernel, by decide⟩

end Casual.DManager
