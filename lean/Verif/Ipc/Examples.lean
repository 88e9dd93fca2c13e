import Verif.Ipc.Discard
/-! # The hypotheses of the theorems are met -/
namespace Casual.Ipc

/-- **C66, refuted**, if more than one message has the correlation: `discard` takes away one of them, the other is received. -/
theorem C66_discard_refuted :
    let a : Msg := ⟨1, 7, [1, 2]⟩
    let b : Msg := ⟨2, 7, [3]⟩
    received (Dev.init.run ((a.frags 2 ++ b.frags 2).map Op.arrive ++ [.discard 7, .select fun _ _ => true])).2 = [b] := by
  decide +kernel

namespace Ex

def a : Msg := ⟨1, 7, [1, 2, 3]⟩
def b : Msg := ⟨1, 8, [4, 5]⟩
def c : Msg := ⟨2, 9, [6, 7, 8]⟩

/-- Two senders: the first has broken off once, and sends two messages. -/
def senders (s : Nat) : List Item :=
  match s with
  | 0 => [⟨a, [1], true⟩, ⟨b, [], true⟩]
  | 1 => [⟨c, [], true⟩]
  | _ => []

/-- The datagrams, mixed. -/
def w : List (Nat × Frag) :=
  [(0, a.part 2 0), (1, c.part 2 0), (0, a.part 2 0), (0, a.part 2 2), (1, c.part 2 2), (0, b.part 2 0)]

theorem proper (s : Nat) : Proper 2 (senders s) := by
  match s with
  | 0 => exact ⟨by decide +kernel, by decide +kernel⟩
  | 1 => exact ⟨by decide +kernel, by decide +kernel⟩
  | s + 2 => exact ⟨fun i hi => (by cases hi), .nil⟩

theorem inter : Interleaves 2 senders w := by
  intro s
  match s with
  | 0 => decide +kernel
  | 1 => decide +kernel
  | s + 2 =>
    show (w.filter fun x => x.1 == s + 2).map (·.2) = []
    simp [w]

theorem apart : Apart senders := by
  intro s t i hi j hj h
  match s, t with
  | 0, 0 => rfl
  | 1, 1 => rfl
  | 0, 1 =>
    simp only [senders, List.mem_cons, List.not_mem_nil, or_false] at hi hj
    rcases hi with rfl | rfl <;> subst hj <;> exact absurd h (by decide +kernel)
  | 1, 0 =>
    simp only [senders, List.mem_cons, List.not_mem_nil, or_false] at hi hj
    rcases hj with rfl | rfl <;> subst hi <;> exact absurd h (by decide +kernel)
  | s + 2, _ => cases hi
  | 0, t + 2 => cases hj
  | 1, t + 2 => cases hj

def ops : List Op := (w.take 4).map (fun x => Op.arrive x.2) ++ [.select fun t _ => t == 1, .push ⟨5, 5, [1]⟩] ++ (w.drop 4).map (fun x => Op.arrive x.2) ++ [.select fun _ _ => true]

theorem arr : arrivals ops = w.map (·.2) := by decide +kernel

theorem foreign : ∀ o ∈ ops, o.foreign senders := by
  intro o ho
  simp only [ops, w, List.take, List.drop, List.map_cons, List.map_nil, List.cons_append, List.nil_append, List.mem_cons, List.not_mem_nil, or_false] at ho
  rcases ho with rfl | rfl | rfl | rfl | rfl | rfl | rfl | rfl | rfl <;> try trivial
  intro s i hi
  match s with
  | 0 =>
    simp only [senders, List.mem_cons, List.not_mem_nil, or_false] at hi
    rcases hi with rfl | rfl <;> decide +kernel
  | 1 =>
    simp only [senders, List.mem_cons, List.not_mem_nil, or_false] at hi
    subst hi
    decide +kernel
  | s + 2 => cases hi

/-- C30: three bytes, parts of two. -/
example : ∃ x, reassemble ((a.frags 2).take 2) = some x ∧ (x.complete = true ↔ 2 = (a.frags 2).length) ∧ (2 = (a.frags 2).length → x.msg = a) :=
  C30_roundtrip (by decide) a (by decide) (by decide +kernel)
example : (a.frags 2).length = 2 ∧ (a.frags 1).length = 3 ∧ (a.frags 3).length = 1 ∧ (Msg.frags 3 ⟨1, 1, []⟩).length = 1 := by decide +kernel
example : (goes 1 ⟨a, 0⟩ [[.ok], [.full], [.ok, .ok]]).1 = a.frags 1 ∧ (partialSend 1 (goes 1 ⟨a, 0⟩ [[.ok], [.full], [.ok]]).2 [.ok]).2.2.1 = .done := by decide +kernel

theorem spares : ∀ o ∈ ops, o.spares a.key ∧ o.spares b.key ∧ o.even (fun k => k == a.key || k == b.key) := by
  intro o ho
  simp only [ops, w, List.take, List.drop, List.map_cons, List.map_nil, List.cons_append, List.nil_append, List.mem_cons, List.not_mem_nil, or_false] at ho
  have key : ∀ k : Nat × Nat, (k == a.key || k == b.key) = true → k.1 = 1 := by
    intro k hk
    simp only [Bool.or_eq_true, beq_iff_eq] at hk
    rcases hk with rfl | rfl <;> rfl
  rcases ho with rfl | rfl | rfl | rfl | rfl | rfl | rfl | rfl | rfl
  · exact ⟨trivial, trivial, trivial⟩
  · exact ⟨trivial, trivial, trivial⟩
  · exact ⟨trivial, trivial, trivial⟩
  · exact ⟨trivial, trivial, trivial⟩
  · exact ⟨trivial, trivial, .inl fun k hk => by simp [key k hk]⟩
  · exact ⟨(by decide : a.key.1 ≠ flushType), (by decide : b.key.1 ≠ flushType), fun k hk => by rw [key k hk]; decide⟩
  · exact ⟨trivial, trivial, trivial⟩
  · exact ⟨trivial, trivial, trivial⟩
  · exact ⟨trivial, trivial, .inl fun k hk => rfl⟩

/-- C31: the message is received. -/
example := C31_interleaved (by decide) proper apart inter arr foreign (s := 0) (i := ⟨a, [1], true⟩) (by simp [senders]) (fun o ho => (spares o ho).1)
example : received (Dev.init.run ops).2 = [a, ⟨5, 5, [1]⟩] ∧ (Dev.init.run ops).1.wire = [c.part 2 2, b.part 2 0] := by decide +kernel

/-- C60: a set of messages of one sender. -/
example := C60_fifo (by decide) proper apart inter arr foreign (s := 0) (K := fun k => k == a.key || k == b.key)
  (fun k hk => by
    simp only [Bool.or_eq_true, beq_iff_eq] at hk
    rcases hk with rfl | rfl
    · exact ⟨⟨a, [1], true⟩, by simp [senders], rfl⟩
    · exact ⟨⟨b, [], true⟩, by simp [senders], rfl⟩) (fun o ho => (spares o ho).2.2)

/-- The coordinator: the destination is blocked, then accepts, then it is gone. -/
def ins : List In := [.send 3 a true [.ok, .full], .send 3 b false [], .send 4 c true [.ok, .ok], .writable 3 [.ok, .full], .failed 3]

example : accepted 3 (Coord.init.run 2 ins).tr = [(a, true), (b, false)] ∧ sentTo 3 (Coord.init.run 2 ins).tr = a.frags 2 ∧
    lostTo 3 (Coord.init.run 2 ins).tr = [(b, false)] ∧ sentTo 4 (Coord.init.run 2 ins).tr = c.frags 2 := by decide +kernel
example := C62_every_message (n := 2) (by decide) ins 3 (by decide +kernel)
example : (Coord.init.run 2 (ins.take 2)).write = [3] ∧ (Coord.init.run 2 (ins.take 2)).pending = 2 := by decide +kernel
example := C64_drained (n := 2) (by decide) (ins.take 3) 3 (by decide +kernel) 5 (by decide +kernel)

/-- C65: one sender with a coordinator. -/
def is (s : Nat) : List In := if s = 0 then ins else []

def w' : List (Nat × Frag) := (a.frags 2).map fun f => (0, f)

def ops' : List Op := w'.map (fun x => Op.arrive x.2) ++ [.select fun _ _ => true]

theorem is_nil {s : Nat} (h : s ≠ 0) : Coord.init.run 2 (is s) = Coord.init := by simp [is, h, Coord.run]

example : ∃ rest, only (· == a.key) (completedSends 3 (Coord.init.run 2 (is 0))) = only (· == a.key) (received (Dev.init.run ops').2) ++ rest ∧
    ((Dev.init.run ops').1.wire = [] → rest = only (· == a.key) (completed (Dev.init.run ops').1.cache)) := by
  refine C65_end_to_end (n := 2) (by decide) 3 is (w := w') (os := ops') ?_ ?_ ?_ ?_ (by decide +kernel) ?_ (s := 0) (K := (· == a.key)) ?_ ?_
  · intro s
    by_cases h : s = 0
    · subst h; decide +kernel
    · rw [is_nil h]; intro m hm; cases hm
  · intro s
    by_cases h : s = 0
    · subst h; decide +kernel
    · rw [is_nil h]; exact List.nodup_nil
  · intro s t k hs ht
    by_cases h : s = 0
    · by_cases h' : t = 0
      · rw [h, h']
      · rw [is_nil h'] at ht; cases ht
    · rw [is_nil h] at hs; cases hs
  · intro s
    by_cases h : s = 0
    · subst h; decide +kernel
    · rw [is_nil h]
      show _ = []
      rw [List.map_eq_nil_iff, List.filter_eq_nil_iff]
      intro x hx
      obtain ⟨f, -, rfl⟩ := List.mem_map.mp hx
      simpa using fun e => h e.symm
  · intro m hm
    simp [ops'] at hm
  · intro k hk
    simp only [beq_iff_eq] at hk
    subst hk
    exact ⟨a, by decide +kernel, rfl⟩
  · intro o ho
    rcases List.mem_append.mp ho with ho | ho
    · obtain ⟨x, -, rfl⟩ := List.mem_map.mp ho
      trivial
    · simp only [List.mem_singleton] at ho
      subst ho
      exact .inl fun _ _ => rfl

/-- C66: the message is discarded after its first datagram has arrived. -/
def before : List Op := (w.take 1).map fun x => Op.arrive x.2
def after : List Op := (w.drop 1).map (fun x => Op.arrive x.2) ++ [.select fun _ _ => true, .select fun _ _ => true, .select fun _ _ => true]

example : ∀ m ∈ received ((Dev.init.run (before ++ [.discard 7])).1.run after).2, m.corr ≠ 7 := by
  have hno : ∀ o ∈ before ++ .discard 7 :: after, (∀ m, o ≠ .push m) := by
    intro o ho m
    simp only [before, after, w, List.take, List.drop, List.map_cons, List.map_nil, List.cons_append, List.nil_append, List.mem_cons, List.not_mem_nil, or_false] at ho
    rcases ho with rfl | rfl | rfl | rfl | rfl | rfl | rfl | rfl | rfl | rfl <;> simp
  refine C66_discard_partial (by decide) proper apart inter (by decide +kernel) ?_ (fun m hm => absurd rfl (hno _ hm m)) (s := 0) (i := ⟨a, [1], true⟩) (by decide +kernel) ?_ ?_ (by decide)
  · intro o ho
    cases o with
    | push m => exact absurd rfl (hno _ ho m)
    | _ => trivial
  · intro t j hj hc
    match t with
    | 0 => rfl
    | 1 =>
      simp only [senders, List.mem_cons, List.not_mem_nil, or_false] at hj
      subst hj
      exact absurd hc (by decide +kernel)
    | t + 2 => cases hj
  · intro o ho
    simp only [before, w, List.take, List.map_cons, List.map_nil, List.mem_singleton] at ho
    subst ho
    trivial
example : received ((Dev.init.run (before ++ [.discard 7])).1.run after).2 = [c, b] := by decide +kernel

end Ex
end Casual.Ipc
