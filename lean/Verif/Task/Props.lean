import Verif.Task.Inv

/-!
  The task coordinator, for any use of it (`Cmd`): any groups, any actions and
  handlers (`Ops`), any messages, cancellations and changes of the state they
  work on by their owner, in any order and number.

  `Ended`, `starts` and `Ev` (`Verif.Task.Inv`, `Verif.Task.Model`) are the
  vocabulary: a unit has ended when its action said abort or one of its handlers
  said done.  The `seq` of a unit is the number of the `then` call that brought it.
-/
namespace Casual.Task

variable {S M A B : Type}

/-- The units that were given to the coordinator with its `n`-th `then` call are
those with `seq = n`, so this says: a unit is started only when every unit of every
earlier group has ended, or was cancelled. -/
theorem task_groups_run_in_order (ops : Ops S M A B) (s : S) (cmds : List (Cmd S M A B))
    (before after : List Ev) (w v : UId)
    (hw : (Coord.run ops s cmds).log = before ++ Ev.started w :: after)
    (hv : Ev.added v ∈ (Coord.run ops s cmds).log) (hlt : v.seq < w.seq) :
    Ev.cancelled v ∈ before ∨ Ended before v :=
  (run_inv ops s cmds).w.order before after w hw v hv hlt

/-- An action is invoked at most once, a unit ends at most once, only a started unit
ends, only an added unit starts, and a cancelled unit is never started. -/
theorem task_action_once (ops : Ops S M A B) (s : S) (cmds : List (Cmd S M A B)) :
    (starts (Coord.run ops s cmds).log).Nodup ∧
    (ends (Coord.run ops s cmds).log).Nodup ∧
    (∀ u, Ended (Coord.run ops s cmds).log u → Ev.started u ∈ (Coord.run ops s cmds).log) ∧
    (∀ u, Ev.started u ∈ (Coord.run ops s cmds).log → Ev.added u ∈ (Coord.run ops s cmds).log) ∧
    (∀ u, Ev.cancelled u ∈ (Coord.run ops s cmds).log → Ev.started u ∉ (Coord.run ops s cmds).log) :=
  have h := (run_inv ops s cmds).w
  ⟨h.startsNodup, h.endsNodup, h.endedStarted, h.startedAdded, fun u hu => (h.cancelledNew u hu).1⟩

/-- The coordinator never stalls: a unit that has been added, was not cancelled and
is not started, waits for one that has started and has not ended - and that one is
of an earlier group. -/
theorem task_waits_for_a_running_unit (ops : Ops S M A B) (s : S) (cmds : List (Cmd S M A B)) (v : UId)
    (hv : Ev.added v ∈ (Coord.run ops s cmds).log) (hc : Ev.cancelled v ∉ (Coord.run ops s cmds).log)
    (hs : Ev.started v ∉ (Coord.run ops s cmds).log) :
    ∃ u, Ev.started u ∈ (Coord.run ops s cmds).log ∧ ¬ Ended (Coord.run ops s cmds).log u ∧ u.seq < v.seq := by
  have h := run_inv ops s cmds
  rcases h.w.account v hv with h1 | h1 | h1 | h1
  · exact absurd h1 hc
  · exact absurd h1.1 hs
  · exact absurd (h.w.actStarted v h1) hs
  · have hne : (Coord.run ops s cmds).conts ≠ [] := by
      intro he
      rw [he] at h1
      cases h1
    obtain ⟨u, hu⟩ := List.exists_mem_of_ne_nil _ (h.front hne)
    have hu' : u.id ∈ ids ((Coord.run ops s cmds).conts.headD []) := mem_ids.mpr ⟨u, hu, rfl⟩
    exact ⟨u.id, h.w.actStarted _ hu', h.w.actLive _ hu', h.w.actBefore _ hu' v h1⟩

/-- What was added has ended, was cancelled, is running or waits: the coordinator is
empty only when everything it was given has ended or was cancelled. -/
theorem task_empty_means_all_ended (ops : Ops S M A B) (s : S) (cmds : List (Cmd S M A B))
    (he : (Coord.run ops s cmds).conts = []) (v : UId) (hv : Ev.added v ∈ (Coord.run ops s cmds).log) :
    Ev.cancelled v ∈ (Coord.run ops s cmds).log ∨ Ended (Coord.run ops s cmds).log v := by
  have h := run_inv ops s cmds
  rcases h.w.account v hv with h1 | h1 | h1 | h1
  · exact Or.inl h1
  · exact Or.inr h1.2
  · rw [he] at h1; cases h1
  · rw [he] at h1; cases h1

theorem groupMsg_done (ops : Ops S M A B) (m : M) {u : TUnit A B}
    (hd : ∃ h, ops.handle u.body m = some h ∧ ∀ s, (h s).2.2 = .done) :
    ∀ (g : List (TUnit A B)) (s : S), u ∈ g → Ev.done u.id ∈ (groupMsg ops m g s).2.2
  | [], _, hu => by cases hu
  | x :: xs, s, hu => by
    unfold groupMsg
    dsimp only
    rcases List.mem_cons.mp hu with rfl | hu
    · obtain ⟨h, hh, hh2⟩ := hd
      have : (unitMsg ops m u s).2.2 = .done := by
        unfold unitMsg
        rw [hh]
        exact hh2 s
      rw [this]
      exact List.mem_cons_self
    · have := groupMsg_done ops m hd xs (unitMsg ops m x s).1 hu
      split
      · exact this
      · exact List.mem_cons_of_mem _ this

theorem groupMsg_keeps (ops : Ops S M A B) (m : M) {u : TUnit A B} (hd : ops.handle u.body m = none) :
    ∀ (g : List (TUnit A B)) (s : S), u ∈ g → u ∈ (groupMsg ops m g s).2.1
  | [], _, hu => by cases hu
  | x :: xs, s, hu => by
    unfold groupMsg
    dsimp only
    rcases List.mem_cons.mp hu with rfl | hu
    · have : unitMsg ops m u s = (s, u, .pending) := by
        unfold unitMsg
        rw [hd]
      rw [this]
      exact List.mem_cons_self
    · have := groupMsg_keeps ops m hd xs (unitMsg ops m x s).1 hu
      split
      · exact List.mem_cons_of_mem _ this
      · exact this

/-- A message reaches every running unit: one whose handler for it says done, ends. -/
theorem task_message_reaches_running (ops : Ops S M A B) (c : Coord S A B) (m : M) (u : TUnit A B)
    (hu : u ∈ c.conts.headD []) (hd : ∃ h, ops.handle u.body m = some h ∧ ∀ s, (h s).2.2 = .done) :
    Ended (c.step ops (.msg m)).log u.id := by
  unfold Coord.step
  dsimp only
  refine Or.inr (List.mem_append.mpr (Or.inr ?_))
  cases hc : c.conts with
  | nil => rw [hc] at hu; cases hu
  | cons g rest =>
    rw [hc] at hu
    have := groupMsg_done ops m hd g c.st hu
    unfold coordMsg
    dsimp only
    split
    · cases rest with
      | nil => exact this
      | cons => exact List.mem_append.mpr (Or.inl (List.mem_append.mpr (Or.inl this)))
    · exact this

/-- A running unit that has no handler for a message is still running after it. -/
theorem task_message_ignored (ops : Ops S M A B) (c : Coord S A B) (m : M) (u : TUnit A B)
    (hu : u ∈ c.conts.headD []) (hd : ops.handle u.body m = none) :
    u ∈ (c.step ops (.msg m)).conts.headD [] := by
  unfold Coord.step
  dsimp only
  cases hc : c.conts with
  | nil => rw [hc] at hu; cases hu
  | cons g rest =>
    rw [hc] at hu
    have := groupMsg_keeps ops m hd g c.st hu
    unfold coordMsg
    dsimp only
    split
    · rename_i he
      exfalso
      generalize (groupMsg ops m g c.st).2.1 = l at *
      cases l with
      | nil => cases this
      | cons => cases he
    · exact this

/-! ### The hypotheses are met

Three groups: the first has two units that wait for messages 1 and 2, the second
aborts when it is started, the third waits for message 3.  The state is the list of
actions that were invoked. -/

/-- An example: the action logs its number and aborts when it is 0; a unit is done at
the message that equals its body. -/
def demoOps : Ops (List Nat) Nat Nat Nat where
  act := fun a b s => (s ++ [a], b, if a = 0 then .abort else .success)
  handle := fun b m => if b = m then some fun s => (s, b, .done) else none

def demoCmds : List (Cmd (List Nat) Nat Nat Nat) :=
  [.then_ [(11, 1), (12, 2)], .then_ [(0, 9)], .then_ [(13, 3)], .msg 2, .msg 3, .msg 1, .msg 3]

example : (Coord.run demoOps [] demoCmds).log =
    [.added ⟨0, 0⟩, .added ⟨0, 1⟩, .started ⟨0, 0⟩, .started ⟨0, 1⟩, .added ⟨1, 0⟩, .added ⟨2, 0⟩,
     .done ⟨0, 1⟩, .done ⟨0, 0⟩, .started ⟨1, 0⟩, .aborted ⟨1, 0⟩, .started ⟨2, 0⟩, .done ⟨2, 0⟩] ∧
    (Coord.run demoOps [] demoCmds).st = [11, 12, 0, 13] ∧
    (Coord.run demoOps [] demoCmds).conts = [] := by decide +kernel

/-- One added, not cancelled, not started: it waits. -/
example : Ev.added ⟨2, 0⟩ ∈ (Coord.run demoOps [] (demoCmds.take 5)).log ∧
    Ev.cancelled ⟨2, 0⟩ ∉ (Coord.run demoOps [] (demoCmds.take 5)).log ∧
    Ev.started ⟨2, 0⟩ ∉ (Coord.run demoOps [] (demoCmds.take 5)).log ∧
    ¬ Ev.done ⟨0, 0⟩ ∈ (Coord.run demoOps [] (demoCmds.take 5)).log := by decide +kernel

/-- Cancel: what waits is gone, what runs is not. -/
example : (Coord.run demoOps [] (demoCmds.take 3 ++ [.cancel, .msg 1, .msg 2])).log.drop 6 =
    [.cancelled ⟨1, 0⟩, .cancelled ⟨2, 0⟩, .done ⟨0, 0⟩, .done ⟨0, 1⟩] := by decide +kernel

end Casual.Task
