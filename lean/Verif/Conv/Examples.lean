import Verif.Conv.Refute
/-!
The hypotheses of the theorems about conversations are met: histories with two processes, 0 that connects and the server 1, and with
three, where the server 1 connects to the server 2.
-/
namespace Casual.Conv

/-- A process that is not a server is neat. -/
theorem neat_client {srv : Nat → Bool} {as : List Act} {p : Nat} (h : srv p = false) : NeatHistory srv as p := by
  intro pre _ h'
  rw [h] at h'
  cases h'

/-- Data in both directions, the control goes over and back, and the service returns. -/
def talk : List Act :=
  [.connect 0 (some 1) true false 7, .pump 1 true, .connected 0,
   .send 0 0 8 false, .send 0 0 9 true, .recv 1 0 false, .recv 1 0 false,
   .send 1 0 20 false, .recv 0 0 false, .send 1 0 21 true, .recv 0 0 false,
   .send 0 0 10 true, .recv 1 0 true, .ret 1 true 5 30 true, .recv 0 0 false]

example : (run server1 talk).log =
    [.ended 0 0 .serviceSuccess 5 (some 30), .returned 0 true 5 30 true, .got 1 0 10 true, .sent 0 0 10, .got 0 0 21 true, .sent 1 0 21,
     .got 0 0 20 false, .sent 1 0 20, .got 1 0 9 true, .got 1 0 8 false, .sent 0 0 9, .sent 0 0 8, .connected 0 0,
     .started 0 false 7, .asked 0 false 7] := by decide +kernel

/-- C185: in the middle of it, both have a descriptor; 0 has two conversations, with different descriptors. -/
example : let w := run server1 (talk.take 6 ++ [.connect 0 (some 2) true false 1])
    IsOpen w 0 0 0 ∧ IsOpen w 1 0 0 ∧ IsOpen w 0 1 1 ∧ .connected 0 0 ∈ w.log ∧ IsInitiator w 0 0 ∧ ¬ ∃ c, IsOpen w 0 2 c := by
  refine ⟨⟨⟨0, 1, .receive, true⟩, by decide +kernel, rfl⟩, ⟨⟨0, 0, .receive, false⟩, by decide +kernel, rfl⟩,
    ⟨⟨1, 2, .send, true⟩, by decide +kernel, rfl⟩, by decide +kernel, ⟨⟨0, 1⟩, by decide +kernel, rfl⟩, ?_⟩
  rintro ⟨c, v, h, _⟩
  have : lookup ((run server1 (talk.take 6 ++ [.connect 0 (some 2) true false 1])).procs 0).table 2 = none := by decide +kernel
  rw [this] at h
  cases h

/-- C186: the control is on one side, then on the other. -/
example : InControl (run server1 (talk.take 4)) 0 0 0 ∧ Receiving (run server1 (talk.take 4)) 1 0 0 ∧
    InControl (run server1 (talk.take 7)) 1 0 0 ∧ Receiving (run server1 (talk.take 7)) 0 0 0 :=
  ⟨⟨⟨0, 1, .send, true⟩, by decide +kernel, rfl, rfl⟩, ⟨⟨0, 0, .receive, false⟩, by decide +kernel, rfl, rfl⟩,
   ⟨⟨0, 0, .send, false⟩, by decide +kernel, rfl, rfl⟩, ⟨⟨0, 1, .receive, true⟩, by decide +kernel, rfl, rfl⟩⟩

/-- C187: some of the data has been received, and then all of it. -/
example : Sides (run server1 (talk.take 6)) 0 1 0 ∧ NeatHistory server1 (talk.take 6) 0 ∧
    gotBy 1 0 (run server1 (talk.take 6)).log = [8] ∧ sentBy 0 0 (run server1 (talk.take 6)).log = [8, 9] ∧
    gotBy 1 0 (run server1 (talk.take 7)).log = [8, 9] ∧ InControl (run server1 (talk.take 7)) 1 0 0 :=
  ⟨Or.inr ⟨⟨⟨0, 1⟩, by decide +kernel, rfl⟩, ⟨⟨0, 1⟩, by decide +kernel, rfl⟩⟩, neat_client rfl, by decide +kernel, by decide +kernel,
   by decide +kernel, ⟨⟨0, 0, .send, false⟩, by decide +kernel, rfl, rfl⟩⟩

def servers12 : Nat → Bool := fun p => p == 1 || p == 2

/-- C187: a server that is an initiator, and neat: it ends the conversation before it returns. -/
def neatly : List Act :=
  [.begin 1, .connect 1 (some 2) false true 7, .pump 2 true, .connected 1, .send 2 0 8 false, .send 2 0 9 false, .recv 1 0 false,
   .recv 1 0 false, .disconnect 1 0, .finish 1]

example : NeatHistory servers12 neatly 1 ∧ gotBy 1 0 (run servers12 neatly).log = [8, 9] ∧
    sentBy 2 0 (run servers12 neatly).log = [8, 9] ∧ Sides (run servers12 neatly) 0 1 2 := by
  refine ⟨?_, by decide +kernel, by decide +kernel, Or.inl ⟨⟨⟨1, 2⟩, by decide +kernel, rfl⟩, ⟨⟨1, 2⟩, by decide +kernel, rfl⟩⟩⟩
  intro pre hp _ hb d c ho hi
  have hlen := hp.length_le
  have hpre : pre = neatly.take pre.length := by
    obtain ⟨t, ht⟩ := hp
    rw [← ht, List.take_left]
  obtain ⟨v, hv, _⟩ := ho
  have key : ∀ n, n ≤ 10 → ((run servers12 (neatly.take n)).procs 1).busy = false →
      ((run servers12 (neatly.take n)).procs 1).table.all (·.isNone) = true := by decide +kernel
  rw [hpre] at hb hv
  have h1 := key pre.length (by simpa [neatly] using hlen) hb
  have h2 := mem_of_idx (lookup_some hv).1
  have := List.all_eq_true.1 h1 _ h2
  simp at this

/-- C188, C189: an event of every kind is given. -/
example : .ended 0 0 .serviceSuccess 5 (some 30) ∈ (run server1 talk).log ∧
    .ended 1 0 .disconnect 0 none ∈ (run server1 exits).log ∧
    .ended 0 0 .serviceFail 4 (some 3) ∈ (run server1 (talk.take 7 ++ [.ret 1 false 4 3 true, .recv 0 0 true])).log ∧
    .ended 0 0 .serviceFail 4 none ∈ (run server1 (talk.take 3 ++ [.ret 1 false 4 3 true, .send 0 0 1 true])).log ∧
    .ended 0 0 .serviceError 0 none ∈ (run server1 (talk.take 3 ++ [.die 1, .report 0, .send 0 0 1 true])).log ∧
    .ended 0 0 .serviceError 0 (some 3) ∈ (run server1 (talk.take 7 ++ [.ret 1 true 4 3 false, .recv 0 0 true])).log ∧
    .lost 0 0 ∈ (run server1 (talk.take 3 ++ [.die 1, .send 0 0 1 true])).log := by decide +kernel

/-- C190: the service has returned, and the initiator is receiving or in control. -/
example : let w := run server1 (talk.take 14)
    IsInitiator w 0 0 ∧ NeatHistory server1 (talk.take 14) 0 ∧ (w.procs 0).alive = true ∧ .returned 0 true 5 30 true ∈ w.log ∧
    Receiving w 0 0 0 ∧ recvResult w 0 0 false = .event .serviceSuccess 5 (some 30) :=
  ⟨⟨⟨0, 1⟩, by decide +kernel, rfl⟩, neat_client rfl, by decide +kernel, by decide +kernel,
   ⟨⟨0, 1, .receive, true⟩, by decide +kernel, rfl, rfl⟩, by decide +kernel⟩

example : let w := run server1 (talk.take 3 ++ [.die 1, .report 0])
    .reported 0 ∈ w.log ∧ InControl w 0 0 0 ∧ sendResult w 0 0 1 false = .event .serviceError 0 none :=
  ⟨by decide +kernel, ⟨⟨0, 1, .send, true⟩, by decide +kernel, rfl, rfl⟩, by decide +kernel⟩

/-- C191: data is before the disconnect. -/
example : let w := run server1 (talk.take 4 ++ [.disconnect 0 0])
    IsSubordinate w 1 0 ∧ .disconnected 0 ∈ w.log ∧ (w.procs 1).alive = true ∧ Receiving w 1 0 0 ∧
    (w.procs 1).inbox = [.data 0 .receive .absent 0 8, .disconnect 0] :=
  ⟨⟨⟨0, 1⟩, by decide +kernel, rfl⟩, by decide +kernel, by decide +kernel, ⟨⟨0, 0, .receive, false⟩, by decide +kernel, rfl, rfl⟩,
   by decide +kernel⟩

/-- C192 -/
example : .started 0 true 7 ∈ (run server1 [.connect 0 (some 1) false true 7, .pump 1 true]).log ∧
    .asked 0 true 7 ∈ (run server1 [.connect 0 (some 1) false true 7, .pump 1 true]).log := by decide +kernel

/-- C193: the service has been called, the reply is on its way. -/
example : let w := run server1 (talk.take 2)
    Connecting w 0 0 ∧ (w.procs 0).alive = true ∧ .started 0 false 7 ∈ w.log :=
  ⟨⟨0, by decide +kernel⟩, by decide +kernel, by decide +kernel⟩

/-- C194: the service returns in a conversation that goes on. -/
example : let w := run server1 (talk.take 13)
    Serving w 1 0 ∧ (w.procs 1).free (server1 1) = true ∧ IsInitiator w 0 0 ∧ (w.procs 0).alive = true ∧
    ∀ e ∈ w.log, (∀ ev u x, e ≠ .ended 1 0 ev u x) ∧ e ≠ .lost 1 0 := by
  refine ⟨⟨⟨0, 0, 0⟩, by decide +kernel, rfl⟩, by decide +kernel, ⟨⟨0, 1⟩, by decide +kernel, rfl⟩, by decide +kernel, ?_⟩
  intro e he
  have h2 : (run server1 (talk.take 13)).log.all (fun e => match e with | .ended _ _ _ _ _ => false | .lost _ _ => false | _ => true) = true := by
    decide +kernel
  have := List.all_eq_true.1 h2 _ he
  constructor
  · rintro ev u x rfl; simp at this
  · rintro rfl; simp at this

end Casual.Conv
