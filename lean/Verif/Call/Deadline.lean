import Verif.Tx.Model
/-!
Model of how a deadline follows a chain of service calls:
`service::call` (common/include/common/server/handle/service.h:53-67),
`call::Context::deadline` (common/source/service/call/context.cpp:368-374),
`prepare::lookup` (same file, 60-86) and `calculate_deadline` with the part of `dispatch::lookup`
that fills in the reply (service/source/manager/handle.cpp:365-374 and 448-476).
A wait in the service manager for an instance is in `Verif/Service` (C61); here the request is
dispatched when it is received.
-/
namespace Casual.Call
open Casual.Tx (Ctx current)

/-- `Context::deadline`, call/context.cpp:368-374. -/
def ownDeadline (start : Int) (remaining : Option Int) : Option Int :=
  match remaining with
  | some r => some (start + r)
  | none => none

/-- `prepare::lookup`, call/context.cpp:60-86: the deadline of the lookup request. -/
def lookupDeadline (c : Ctx) (own : Option Int) (notran : Bool) : Option Int :=
  if (current c).trid.isSome && !notran then (current c).deadline else own

/-- `calculate_deadline`, service/source/manager/handle.cpp:365-374. -/
def calculateDeadline (timeout : Option Int) (now : Int) (caller : Option Int) : Option Int :=
  match timeout with
  | some t =>
    if t > 0 then
      match caller with
      | none => some (now + t)
      | some d => if d > now + t then some (now + t) else some d
    else caller
  | none => caller

/-- `reply.deadline.remaining`, handle.cpp:450-453 and 467-473; copied to the request,
call/context.cpp:104. -/
def remainingOf (timeout : Option Int) (now : Int) (caller : Option Int) : Option Int :=
  match calculateDeadline timeout now caller with
  | some d => some (d - now)
  | none => none

/-- One call in a chain: the transaction context of the caller when it calls, the flag TPNOTRAN,
the timeout that is configured for the called service, when the service manager handles the lookup
and when the called service starts. -/
structure Hop where
  tx : Ctx
  notran : Bool
  timeout : Option Int
  now : Int
  start : Int

/-- The deadline of the callee. -/
def hop (own : Option Int) (h : Hop) : Option Int :=
  ownDeadline h.start (remainingOf h.timeout h.now (lookupDeadline h.tx own h.notran))

/-- A chain of calls. -/
def chain (own : Option Int) (hs : List Hop) : Option Int := hs.foldl hop own

/-! ### C87 -/

/-- The claim: if a service has a deadline, a service that is called from it has one too, and that is
not later, except for the time it takes from the service manager to the start of the callee. -/
def DeadlineFollows : Prop :=
  ∀ (d : Int) (h : Hop), h.now ≤ h.start → ∃ d', hop (some d) h = some d' ∧ d' ≤ d + (h.start - h.now)

/-- C87 does not hold: a service that has been called within a transaction, with a deadline, calls
another service within the transaction: the other has no deadline at all. -/
theorem C87_refuted : ¬ DeadlineFollows ∧
    ∀ (e : Tx.Env) (n : Nat) (own : Option Int) (now start : Int),
      hop own ⟨(Tx.join e (some (.other n 0)) {}).1, false, none, now, start⟩ = none := by
  have key : ∀ (e : Tx.Env) (n : Nat) (own : Option Int) (now start : Int),
      hop own ⟨(Tx.join e (some (.other n 0)) {}).1, false, none, now, start⟩ = none := by
    intro e n own now start
    have h : (current (Tx.join e (some (.other n 0)) {}).1).trid.isSome = true ∧
        (current (Tx.join e (some (.other n 0)) {}).1).deadline = none := by
      unfold Tx.join
      simp only
      split
      · exact ⟨rfl, rfl⟩
      · have hk : ∀ (l : List Tx.Rm) (s : Ctx × Code.Tx) (f : Tx.Rm → Tx.Flag),
            (Tx.accum (fun r c => ((Tx.doXa e (.start r (.other n 0) (f r)) c).1,
              Code.toTx (Tx.doXa e (.start r (.other n 0) (f r)) c).2)) l s).1.stack = s.1.stack := by
          intro l
          induction l with
          | nil => intro s f; rfl
          | cons r l ih => intro s f; rw [Tx.accum, ih]; rfl
        unfold current
        rw [hk _ _ (fun r => if r ∈ _ then Tx.Flag.join else Tx.Flag.none)]
        have hinv : ∀ (rs : List Tx.Rm) (t : Tx.Tran), (t.involve rs).suspended = t.suspended ∧
            (t.involve rs).trid = t.trid ∧ (t.involve rs).deadline = t.deadline := by
          intro rs t; exact ⟨rfl, rfl, rfl⟩
        simp only [Tx.emit, (hinv _ _).1, (hinv _ _).2.1, (hinv _ _).2.2, Bool.false_eq_true, if_false]
        exact ⟨rfl, trivial⟩
    unfold hop lookupDeadline
    simp [h.1, h.2, remainingOf, calculateDeadline, ownDeadline]
  refine ⟨?_, key⟩
  intro h
  obtain ⟨d', h', _⟩ := h 100 ⟨(Tx.join ⟨[], [], fun _ _ => .ok, fun _ _ => [], fun _ _ => ((.commit, .ok), .ok), fun _ _ => .ok⟩
    (some (.other 0 0)) {}).1, false, none, 0, 0⟩ (Int.le_refl _)
  rw [key] at h'
  cases h'

/-- `calculate_deadline` is the smaller of what there is. -/
theorem calculateDeadline_spec (timeout : Option Int) (now d : Int) :
    ∃ d', calculateDeadline timeout now (some d) = some d' ∧ d' ≤ d ∧
      (∀ t, timeout = some t → t > 0 → d' ≤ now + t) := by
  unfold calculateDeadline
  cases timeout with
  | none => exact ⟨d, rfl, Int.le_refl _, by intro t h; cases h⟩
  | some t =>
    simp only
    split
    · split
      · exact ⟨now + t, rfl, by omega, by intro t' h' _; cases h'; omega⟩
      · exact ⟨d, rfl, Int.le_refl _, by intro t' h' _; cases h'; omega⟩
    · exact ⟨d, rfl, Int.le_refl _, by intro t' h' hp; cases h'; contradiction⟩

/-- A call for which the caller's deadline is passed on: outside a transaction, or with TPNOTRAN. -/
def Hop.plain (h : Hop) : Prop := (current h.tx).trid = none ∨ h.notran = true

/-- The time spent between the service manager and the start of the callee. -/
def Hop.transit (h : Hop) : Int := h.start - h.now

theorem hop_plain {d : Int} {h : Hop} (hp : h.plain) : ∃ d', hop (some d) h = some d' ∧ d' ≤ d + h.transit ∧
    (∀ t, h.timeout = some t → t > 0 → d' ≤ h.start + t) := by
  obtain ⟨d1, h1, h2, h3⟩ := calculateDeadline_spec h.timeout h.now d
  have hl : lookupDeadline h.tx (some d) h.notran = some d := by
    unfold lookupDeadline
    rcases hp with hp | hp <;> simp [hp]
  refine ⟨h.start + (d1 - h.now), ?_, ?_, ?_⟩
  · unfold hop remainingOf
    rw [hl, h1]; rfl
  · unfold Hop.transit; omega
  · intro t ht hpos
    have := h3 t ht hpos
    omega

/-- C87, what holds: along any chain of calls outside transactions, or with TPNOTRAN, the last
service has a deadline, not later than the first one and the time the requests have been on their
way; and not later than any timeout configured for a service in the chain (counted from its start,
plus the time the requests have been on their way since). -/
theorem C87_chain_partial (d : Int) (hs : List Hop) (hp : ∀ h ∈ hs, h.plain) :
    ∃ d', chain (some d) hs = some d' ∧ d' ≤ d + (hs.map Hop.transit).sum ∧
      ∀ pre h post, hs = pre ++ h :: post → ∀ t, h.timeout = some t → t > 0 →
        d' ≤ h.start + t + (post.map Hop.transit).sum := by
  induction hs generalizing d with
  | nil => exact ⟨d, rfl, by simp, by intro pre h post he; simp at he⟩
  | cons h hs ih =>
    obtain ⟨d1, h1, h2, h3⟩ := hop_plain (d := d) (hp h List.mem_cons_self)
    obtain ⟨d2, i1, i2, i3⟩ := ih d1 (fun h hm => hp h (List.mem_cons_of_mem _ hm))
    refine ⟨d2, ?_, ?_, ?_⟩
    · show chain (hop (some d) h) hs = _
      rw [h1]; exact i1
    · simp only [List.map_cons, List.sum_cons]; omega
    · intro pre h' post he t ht hpos
      cases pre with
      | nil =>
        simp only [List.nil_append, List.cons.injEq] at he
        obtain ⟨rfl, rfl⟩ := he
        have := h3 t ht hpos
        omega
      | cons q pre =>
        simp only [List.cons_append, List.cons.injEq] at he
        exact i3 pre h' post he.2 t ht hpos

/-- C87, within a transaction that has a deadline (one begun in the calling process after
`tx_set_transaction_timeout`): the callee's deadline is not later than that of the transaction. -/
theorem C87_transaction_partial (own : Option Int) (h : Hop) (d : Int)
    (ht : (current h.tx).trid ≠ none) (hn : h.notran = false) (hd : (current h.tx).deadline = some d) :
    ∃ d', hop own h = some d' ∧ d' ≤ d + h.transit := by
  obtain ⟨d1, h1, h2, _⟩ := calculateDeadline_spec h.timeout h.now d
  have hl : lookupDeadline h.tx own h.notran = some d := by
    unfold lookupDeadline
    rw [hn, hd]
    cases hx : (current h.tx).trid with
    | none => exact absurd hx ht
    | some x => rfl
  refine ⟨h.start + (d1 - h.now), ?_, by unfold Hop.transit; omega⟩
  unfold hop remainingOf
  rw [hl, h1]; rfl

/-- Three services: the second has a timeout of 5, so the third has no more than that. -/
example : chain (some 100) [⟨{}, false, some 5, 10, 11⟩, ⟨{}, true, none, 12, 14⟩] = some 18 := by decide +kernel

example : ∀ h ∈ [(⟨{}, false, some 5, 10, 11⟩ : Hop), ⟨{}, true, none, 12, 14⟩], h.plain := by
  intro h hm
  simp only [List.mem_cons, List.not_mem_nil, or_false] at hm
  rcases hm with rfl | rfl
  · exact Or.inl rfl
  · exact Or.inr rfl

/-- A transaction with a timeout of 30, begun at 0. -/
example : let e : Tx.Env := ⟨[], [], fun _ _ => .ok, fun _ _ => [], fun _ _ => ((.commit, .ok), .ok), fun _ _ => .ok⟩
    hop (some 100) ⟨Tx.run e [.setTimeout 30, .begin 0], false, none, 10, 12⟩ = some 32 := by decide +kernel

end Casual.Call
