import Verif.GConf.Program
import Verif.GConf.Restart
/-
  What is not so, and cases that the theorems are about.
-/
namespace Casual.GConf
open Casual.Task

/-- An outbound group and an inbound group. -/
def exOut : Conf := { side := .outb, alias := 1, info := 1 }

/-- See above. -/
def exIn : Conf := { side := .inb, alias := 1, info := 2 }

/-- Both have connected, and have been told. -/
def exUp : List Ev := [.connect .outb 1, .reply .outb 1, .connect .inb 2, .reply .inb 2]

/-- What runs. -/
def State.confs (st : State) : List Conf := st.groups.map (·.conf)

/-- A group dies before the boot procedure is done: it is not started again. -/
theorem early_refuted : ∃ (wanted : List Conf) (es : List Ev),
    let c := run (boot [] wanted) ([.exit 1] ++ es)
    wanted.length = 2 ∧ c.conts = [] ∧ c.st.level = .running ∧ c.st.confs = [exIn] := ⟨[exOut, exIn], [.connect .inb 2, .reply .inb 2], by decide +kernel⟩

/-- A process can not be started: it is not tried again. -/
theorem spawn_refuted : ∃ (wanted : List Conf) (es : List Ev),
    let c := run (boot [true] wanted) es
    wanted.length = 2 ∧ c.conts = [] ∧ c.st.level = .running ∧ c.st.confs = [exIn] := ⟨[exOut, exIn], [.connect .inb 1, .reply .inb 1], by decide +kernel⟩

/-- Shutdown before the boot procedure is done: the groups that wait are started after that, and are not asked to stop, so the manager does not end. -/
theorem shutdown_refuted : ∃ (wanted : List Conf) (es : List Ev),
    let c := run (boot [] wanted) ([.shutdown] ++ es)
    c.conts = [] ∧ c.st.level = .shutdown ∧ c.st.confs = [exIn] ∧ c.st.sent = [.stop 1] ∧ c.st.done = false :=
  ⟨[exOut, exIn], [.connect .outb 1, .reply .outb 1, .connect .inb 2, .reply .inb 2, .exit 1], by decide +kernel⟩

/-- An update after shutdown starts groups. -/
theorem after_shutdown_refuted : ∃ (wanted wanted' : List Conf) (es : List Ev),
    let c := run (boot [] wanted) (es ++ [.shutdown, .update 9 wanted', .exit 2, .exit 1, .connect .inb 3, .reply .inb 3])
    c.conts = [] ∧ c.st.level = .shutdown ∧ c.st.sent = [.stop 2, .stop 1, .reply 9] ∧ c.st.groups.map (·.pid) = [3] ∧ c.st.done = false :=
  ⟨[exOut, exIn], [exOut, exIn, { exIn with alias := 2 }], exUp, by decide +kernel⟩

/-- A group is taken away, and posted again before it has ended: both updates are answered, and the group is not there. -/
theorem again_refuted : ∃ (wanted wanted' : List Conf) (es : List Ev),
    let c := run (boot [] wanted) (es ++ [.update 9 wanted', .update 10 wanted, .exit 2])
    wanted.length = 2 ∧ c.conts = [] ∧ c.st.level = .running ∧ c.st.sent = [.stop 2, .reply 9, .reply 10] ∧ c.st.confs = [exOut] := ⟨[exOut, exIn], [exOut], exUp, by decide +kernel⟩

/-- Two updates, one after the other; the first is answered, and the manager is running again when the group that the second takes away ends: it is started again. -/
theorem removed_refuted : ∃ (wanted wanted1 wanted2 : List Conf) (es : List Ev),
    let c := run (boot [] wanted) (es ++ [.update 8 wanted1, .update 9 wanted2, .reply .inb 2, .exit 2, .connect .inb 3, .reply .inb 3])
    wanted2 = [exOut] ∧ c.conts = [] ∧ c.st.sent = [.reply 8, .stop 2, .reply 9] ∧ c.st.confs = [exOut, { exIn with info := 3 }] :=
  ⟨[exOut, exIn], [exOut, { exIn with info := 3 }], [exOut], exUp, by decide +kernel⟩

/-- Two groups die, and the configuration that there is is posted again before both have been started: one of them is started twice. -/
theorem twice_refuted : ∃ (wanted : List Conf) (es : List Ev),
    let c := run (boot [] wanted) (es ++ [.exit 2, .exit 1, .update 9 wanted, .connect .inb 3, .reply .inb 3, .connect .outb 4, .reply .outb 4, .connect .outb 5, .reply .outb 5])
    wanted.length = 2 ∧ c.conts = [] ∧ c.st.level = .running ∧ c.st.sent = [.reply 9] ∧ c.st.confs = [exIn, exOut, exOut] := ⟨[exOut, exIn], exUp, by decide +kernel⟩

/-- A group is changed to reversed connections: it is told so, but it is still the program for the other kind. -/
theorem program_refuted : ∃ (wanted wanted' : List Conf) (es : List Ev),
    let c := run (boot [] wanted) (es ++ [.update 9 wanted', .reply .inb 2])
    c.conts = [] ∧ c.st.level = .running ∧ c.st.sent = [.reply 9] ∧ c.st.groups.map (fun g => (g.conf.reversed, g.exe)) = [(false, false), (true, false)] :=
  ⟨[exOut, exIn], [exOut, { exIn with reversed := true }], exUp, by decide +kernel⟩

/-! ### Cases -/

/-- What is said in `restarted`. -/
example : (run (boot [] [exOut, exIn]) exUp).st.level = .running ∧ (run (boot [] [exOut, exIn]) exUp).conts = [] ∧ (run (boot [] [exOut, exIn]) exUp).st.groups.map (·.pid) = [1, 2] := by decide +kernel

example : (step (run (boot [] [exOut, exIn]) exUp) (.exit 1)).st.groups.map (fun g => (g.pid, g.conf)) = [(2, exIn), (3, exOut)] := by decide +kernel

/-- What is said in `told_current`. -/
example : (run (boot [] [exOut, exIn]) (exUp ++ [.update 9 [exOut, { exIn with info := 3 }]])).st.groups.map (·.told) = [some exOut, some { exIn with info := 3 }] := by decide +kernel

/-- An update is answered when it is done. -/
example : (run (boot [] [exOut, exIn]) (exUp ++ [.update 9 [exOut, { exIn with info := 3 }]])).st.sent = []
    ∧ (run (boot [] [exOut, exIn]) (exUp ++ [.update 9 [exOut, { exIn with info := 3 }], .reply .inb 2])).st.sent = [.reply 9] := by decide +kernel

/-- Inbound groups are asked to stop before outbound groups. -/
example : (run (boot [] [exOut, exIn]) (exUp ++ [.shutdown])).st.sent = [.stop 2] ∧ (run (boot [] [exOut, exIn]) (exUp ++ [.shutdown, .exit 2])).st.sent = [.stop 2, .stop 1]
    ∧ (run (boot [] [exOut, exIn]) (exUp ++ [.shutdown, .exit 2, .exit 1])).st.done = true := by decide +kernel

/-- What is posted in the next. -/
def exNew : List Conf := [{ exIn with info := 3 }, { exIn with alias := 2 }]

/-- What is said in `updated_partial`: a group is changed, one is added, and one is taken away. -/
example : (Born (boot [] [exOut, exIn]) exUp ∧ (run (boot [] [exOut, exIn]) exUp).conts = [])
    ∧ Calm (step (run (boot [] [exOut, exIn]) exUp) (.update 9 exNew)) [.connect .inb 3, .reply .inb 3, .reply .inb 2, .exit 1]
    ∧ Born (step (run (boot [] [exOut, exIn]) exUp) (.update 9 exNew)) [.connect .inb 3, .reply .inb 3, .reply .inb 2, .exit 1]
    ∧ Unique exNew
    ∧ let c := run (step (run (boot [] [exOut, exIn]) exUp) (.update 9 exNew)) [.connect .inb 3, .reply .inb 3, .reply .inb 2, .exit 1]
      c.conts = [] ∧ c.st.level = .running ∧ c.st.sent = [.stop 1, .reply 9] ∧ c.st.confs = exNew := by
  refine ⟨⟨⟨trivial, trivial, trivial, trivial, trivial⟩, by decide +kernel⟩, ⟨trivial, trivial, trivial, ?_, trivial⟩, ⟨trivial, trivial, trivial, ?_, trivial⟩, by decide +kernel, by decide +kernel⟩
  · show ∀ g ∈ _, _
    decide +kernel
  · show _ < _
    decide +kernel

/-- What is said in `booted_partial`. -/
example : Calm (boot [] [exOut, exIn]) exUp ∧ Unique [exOut, exIn] ∧ (run (boot [] [exOut, exIn]) exUp).conts = [] ∧ (run (boot [] [exOut, exIn]) exUp).st.confs = [exOut, exIn] :=
  ⟨⟨trivial, trivial, trivial, trivial, trivial⟩, by decide +kernel, by decide +kernel, by decide +kernel⟩

/-- What is said in `shutdown_partial`. -/
example : Calm (step (run (boot [] [exOut, exIn]) exUp) .shutdown) [.exit 2, .exit 1]
    ∧ Born (step (run (boot [] [exOut, exIn]) exUp) .shutdown) [.exit 2, .exit 1]
    ∧ (run (step (run (boot [] [exOut, exIn]) exUp) .shutdown) [.exit 2]).conts ≠ []
    ∧ (run (step (run (boot [] [exOut, exIn]) exUp) .shutdown) [.exit 2, .exit 1]).conts = [] := by
  refine ⟨⟨?_, ?_, trivial⟩, ⟨?_, ?_, trivial⟩, fun h => ?_, by decide +kernel⟩
  · show ∀ g ∈ _, _
    decide +kernel
  · show ∀ g ∈ _, _
    decide +kernel
  · show _ < _
    decide +kernel
  · show _ < _
    decide +kernel
  · have := congrArg List.length h
    revert this
    decide +kernel

/-- What is said in `ended`: two groups are asked to stop, and one has ended, so the update is still under way. -/
example : (run (boot [] [exIn, { exIn with alias := 2 }]) [.connect .inb 1, .reply .inb 1, .connect .inb 2, .reply .inb 2, .update 9 [], .exit 1]).st.sent = [.stop 1, .stop 2]
    ∧ (run (boot [] [exIn, { exIn with alias := 2 }]) [.connect .inb 1, .reply .inb 1, .connect .inb 2, .reply .inb 2, .update 9 [], .exit 1, .exit 2]).st.sent = [.stop 1, .stop 2, .reply 9] := by
  decide +kernel

/-- What is said in `program_partial`: one is added for reversed connections. -/
example : (∀ c ∈ [exOut, exIn], c.fits fun _ a => a == 2) ∧ posts (fun _ a => a == 2) (exUp ++ [.update 9 [exOut, exIn, { exIn with alias := 2, reversed := true }]])
    ∧ (run (boot [] [exOut, exIn]) (exUp ++ [.update 9 [exOut, exIn, { exIn with alias := 2, reversed := true }]])).st.groups.map (·.exe) = [false, false, true] := by
  refine ⟨?_, ?_, by decide +kernel⟩
  · intro c hc
    simp only [List.mem_cons, List.not_mem_nil, or_false] at hc
    rcases hc with rfl | rfl <;> rfl
  · intro k w hm c hc
    simp only [exUp, List.mem_append, List.mem_cons, List.not_mem_nil, or_false, reduceCtorEq, false_or, Ev.update.injEq] at hm
    obtain ⟨_, rfl⟩ := hm
    simp only [List.mem_cons, List.not_mem_nil, or_false] at hc
    rcases hc with rfl | rfl | rfl <;> rfl

/-- What is said in `all_restarted`: both die, and one of them once more when it has been started, before it has connected. -/
example : let c := run (boot [] [exOut, exIn]) exUp
    c.conts = [] ∧ c.st.level = .running ∧ c.st.fails = [] ∧ (∀ e ∈ [Ev.exit 1, .exit 2, .exit 3, .connect .inb 4, .reply .inb 4, .connect .outb 5, .reply .outb 5], e.ofGroup)
    ∧ (run c [.exit 1, .exit 2]).conts.length = 2
    ∧ (run c [.exit 1, .exit 2, .exit 3, .connect .inb 4, .reply .inb 4, .connect .outb 5, .reply .outb 5]).conts = []
    ∧ (run c [.exit 1, .exit 2, .exit 3, .connect .inb 4, .reply .inb 4, .connect .outb 5, .reply .outb 5]).st.groups.map (fun g => (g.pid, g.conf)) = [(4, exIn), (5, exOut)] := by
  refine ⟨by decide +kernel, by decide +kernel, by decide +kernel, ?_, by decide +kernel, by decide +kernel, by decide +kernel⟩
  intro e he
  simp only [List.mem_cons, List.not_mem_nil, or_false] at he
  rcases he with rfl | rfl | rfl | rfl | rfl | rfl | rfl <;> trivial

end Casual.GConf
