import Verif.QManager.LookupInv

/-!
  The queue manager as a registry of queues: what a lookup is answered with
  (C124, C125, C126, C127).  All theorems are about the log of a run, of what was received
  and sent; the vocabulary is `Verif.QManager.Spec`.
-/
namespace Casual.QManager

theorem allowed_of_enabled {j : Inst} {a : Action} (h : j.enabledFor a = true) : Allowed j.enable a := by
  cases a
  · trivial
  · exact h
  · exact h

theorem enabled_of_allowed {j : Inst} {a : Action} (h : Allowed j.enable a) : j.enabledFor a = true := by
  cases a
  · rfl
  · exact h
  · exact h

theorem QInv.remote {log qs} (h : QInv log qs) {n act a since} (ho : RemoteOffers log n act a since) :
    ∃ j ∈ look qs n, j.enabledFor act = true ∧ ((∀ y ∈ since, ∀ o, ¬ Reorders a.process.ipc o y) → j.order = a.order + 1) ∧ 0 < j.order := by
  obtain ⟨pre, q, he, hd, hq, rfl, hr, hal, hw⟩ := ho
  obtain ⟨j, hj, _, hen, hord⟩ := h.remoteComplete pre a since q he hd hq hr hw
  exact ⟨j, hj, enabled_of_allowed (by rw [hen]; exact hal), hord⟩

theorem QInv.group {log qs} (h : QInv log qs) {n act p} (ho : GroupOffers log n act p) :
    ∃ j ∈ look qs n, j.enabledFor act = true ∧ j.order = 0 := by
  obtain ⟨pre, qs', id, post, he, hq, hs, hx, hal, hw⟩ := ho
  obtain ⟨j, hj, _, _, _, ⟨cfg, hc1, hc2⟩, hord⟩ := h.groupComplete pre p qs' post n id he hq hs hx
    (fun y hy h hp hc => (hw y hy h hp hc).1)
  exact ⟨j, hj, enabled_of_allowed (by rw [hc2]; exact hal cfg hc1), hord (fun y hy h hp hc => (hw y hy h hp hc).2)⟩

theorem find_le {l : List Inst} (hs : Sorted l) {p : Inst → Bool} {j : Inst} (h : l.find? p = some j) :
    ∀ i ∈ l, p i = true → j.order ≤ i.order := by
  induction l with
  | nil => cases h
  | cons x xs ih =>
    unfold Sorted at hs
    rw [List.pairwise_cons] at hs
    rw [List.find?_cons] at h
    intro i hi hp
    cases hx : p x with
    | true =>
      rw [hx] at h
      injection h with h
      subst h
      rcases List.mem_cons.mp hi with rfl | hi
      · exact Nat.le_refl _
      · exact hs.1 i hi
    | false =>
      rw [hx] at h
      rcases List.mem_cons.mp hi with rfl | hi
      · rw [hx] at hp; cases hp
      · exact ih hs.2 h i hi hp

section
variable (env : Env) (dg : Nat) (model : Model) (np : Pid) (xs : List (Env × Input))
variable (pre post : List Item) (dst : Ipc) (corr : Corr) (n : Name)

/-- C124.  A lookup is answered with a provider that offers the queue at that moment, and
is enabled for what the lookup wants; the reply goes to who asked, for what was asked. -/
theorem lookup_answer_offered (f : Found)
    (h : (State.run env dg model np xs).core.log = pre ++ .out (.lookupReply dst corr n (some f)) :: post) :
    ∃ l i, Item.inp (.lookup l) ∈ pre ∧ l.process.ipc = dst ∧ l.corr = corr ∧ l.name = n ∧
      OfferedNow pre n i ∧ i.process = f.process ∧ i.queue = f.queue ∧ Allowed i.enable l.action ∧
      (f.order = i.order ∨ ∃ y ∈ pre, Reorders f.process.ipc f.order y) := by
  obtain ⟨l, hl, rfl, rfl, rfl, qs, j, hq, hf, rfl, _⟩ := (run_linv env dg model np xs).replies pre dst corr n _ post h
  have hj := List.mem_of_find?_eq_some hf
  have hp := List.find?_some hf
  obtain ⟨i, hi, ha, ho⟩ := hq.sound _ j hj
  refine ⟨l, i, hl, rfl, rfl, rfl, hi, ha.1, ha.2.1, ?_, ?_⟩
  · rw [ha.2.2]; exact allowed_of_enabled hp
  · rw [ha.1] at ho; exact ho

/-- C125.  A lookup is answered with "no such queue" only if the manager is to stop, or
it does not want to wait and nobody offers the queue at that moment - to a requester of
another domain that has not discovered: no queue group of this domain does. -/
theorem lookup_absent_only_if_none
    (h : (State.run env dg model np xs).core.log = pre ++ .out (.lookupReply dst corr n none) :: post) :
    ∃ l, Item.inp (.lookup l) ∈ pre ∧ l.process.ipc = dst ∧ l.corr = corr ∧ l.name = n ∧
      (Stopped pre ∨ (l.semantic = .direct ∧ (∀ p, ¬ GroupOffers pre n l.action p) ∧
        (l.requester ≠ .external → ∀ a since, ¬ RemoteOffers pre n l.action a since))) := by
  obtain ⟨l, hl, rfl, rfl, rfl, hr⟩ := (run_linv env dg model np xs).replies pre dst corr n _ post h
  refine ⟨l, hl, rfl, rfl, rfl, ?_⟩
  rcases hr with hr | ⟨hd, qs, hq, hn⟩
  · exact Or.inl hr
  · refine Or.inr ⟨hd, ?_, ?_⟩
    · intro p hg
      obtain ⟨j, hj, he, ho⟩ := hq.group hg
      exact (hn j hj he).2 ho
    · intro hne a since hr
      obtain ⟨j, hj, he, _⟩ := hq.remote hr
      exact hne (hn j hj he).1

/-- C126.  The answer prefers a queue group of this domain; and of the remotes one with
the lowest order. -/
theorem lookup_prefers (f : Found)
    (h : (State.run env dg model np xs).core.log = pre ++ .out (.lookupReply dst corr n (some f)) :: post) :
    ∃ l, Item.inp (.lookup l) ∈ pre ∧ l.process.ipc = dst ∧ l.corr = corr ∧ l.name = n ∧
      ((∃ p, GroupOffers pre n l.action p) → f.order = 0) ∧
      ∀ a since, RemoteOffers pre n l.action a since → (∀ y ∈ since, ∀ o, ¬ Reorders a.process.ipc o y) →
        f.order ≤ a.order + 1 := by
  obtain ⟨l, hl, rfl, rfl, rfl, qs, j, hq, hf, rfl, _⟩ := (run_linv env dg model np xs).replies pre dst corr n _ post h
  refine ⟨l, hl, rfl, rfl, rfl, ?_, ?_⟩
  · rintro ⟨p, hg⟩
    obtain ⟨i, hi, he, ho⟩ := hq.group hg
    have := find_le (hq.sorted _) hf i hi he
    dsimp only
    omega
  · intro a since hr hno
    obtain ⟨i, hi, he, ho, _⟩ := hq.remote hr
    have := find_le (hq.sorted _) hf i hi he
    rw [ho hno] at this
    exact this

/-- What a reply with order 0 names is a queue group of this domain. -/
theorem order_zero_is_group {log : List Item} {n : Name} {i : Inst} (h : OfferedNow log n i) (h0 : i.order = 0) :
    ∃ p qs cfg, Item.inp (.groupReply p qs) ∈ log ∧ Item.out (.spawnGroup p.pid cfg) ∈ log ∧ p.pid = i.process.pid ∧
      (n, i.queue) ∈ qs := by
  obtain ⟨pre, x, post, rfl, ho, _, _⟩ := h
  cases ho with
  | remote a q _ hd hq hp hi ho he => rw [h0] at ho; cases ho
  | group p qs n cfg _ hq hp ho hs he => exact ⟨p, qs, cfg, by simp, hs, hp.symm, hq⟩

/-- C127, in part.  A requester of another domain that does not want to wait is given a
queue of this domain, or none. -/
theorem lookup_external_direct_local_partial (f : Found)
    (h : (State.run env dg model np xs).core.log = pre ++ .out (.lookupReply dst corr n (some f)) :: post) :
    ∃ l, Item.inp (.lookup l) ∈ pre ∧ l.process.ipc = dst ∧ l.corr = corr ∧ l.name = n ∧
      (l.requester = .external → l.semantic = .direct →
        ∃ p qs cfg, Item.inp (.groupReply p qs) ∈ pre ∧ Item.out (.spawnGroup p.pid cfg) ∈ pre ∧ p.pid = f.process.pid ∧
          (n, f.queue) ∈ qs) := by
  obtain ⟨l, hl, rfl, rfl, rfl, qs, j, hq, hf, rfl, hx⟩ := (run_linv env dg model np xs).replies pre dst corr n _ post h
  refine ⟨l, hl, rfl, rfl, rfl, ?_⟩
  intro he hd
  have h0 := hx he hd
  obtain ⟨i, hi, ha, ho⟩ := hq.sound _ j (List.mem_of_find?_eq_some hf)
  have hi0 : i.order = 0 := by
    rcases ho with ho | ⟨y, _, hy⟩
    · rw [← ho]; exact h0
    · exfalso
      rw [h0] at hy
      cases y with
      | out o => exact hy
      | inp i =>
        cases i <;> try exact hy
        exact absurd hy.2.2 (by omega)
  obtain ⟨p, qs', cfg, h1, h2, h3, h4⟩ := order_zero_is_group hi hi0
  refine ⟨p, qs', cfg, h1, h2, ?_, ?_⟩
  · rw [h3, ha.1]
  · rw [← ha.2.1]; exact h4

end

/-! ### Concrete histories -/

/-- Everything can be reached. -/
def allReach : Env := ⟨fun _ => true⟩

/-- Two groups of one queue each, `q` (not to be dequeued from) and `r`. -/
def demoModel : Model :=
  { groups := [{ alias := "g", queues := [{ name := "q", enable := { dequeue := false } }] },
               { alias := "h", queues := [{ name := "r" }] }] }

/-- A queue with its defaults. -/
def qc (n : Name) : QueueCfg := { name := n }

/-- An advertise. -/
def adv (p : Handle) (o : Nat) (d : Directive) (add : List QueueCfg) (remove : List Name := []) : Advertise :=
  { process := p, order := o, directive := d, add := add, remove := remove }

/-- The groups (pids 10, 11) connect and answer, two remotes advertise `q`. -/
def demoUp : List Input :=
  [.groupConnect ⟨10, 110⟩, .groupReply ⟨10, 110⟩ [("q", 1)], .groupConnect ⟨11, 111⟩, .groupReply ⟨11, 111⟩ [("r", 1)],
   .advertise (adv ⟨20, 120⟩ 2 .update [qc "q"]), .advertise (adv ⟨21, 121⟩ 1 .update [qc "q", qc "s"])]

/-- The run of some inputs, everything can be reached. -/
def demoRun (is : List Input) : State := State.run allReach 0 demoModel 10 (is.map fun i => (allReach, i))

/-- Lookups of `q`: to enqueue, the local one; to dequeue, the remote with the lowest
order; after it has withdrawn the other; and none when that has exited. -/
example : ((demoRun (demoUp ++
    [.lookup { corr := 1, process := ⟨30, 130⟩, name := "q", action := .enqueue },
     .lookup { corr := 2, process := ⟨30, 130⟩, name := "q", action := .dequeue },
     .advertise (adv ⟨21, 121⟩ 1 .update [] ["q"]),
     .lookup { corr := 3, process := ⟨30, 130⟩, name := "q", action := .dequeue },
     .exitEvent 20,
     .lookup { corr := 4, process := ⟨30, 130⟩, name := "q", action := .dequeue },
     .discoveryReply 4])).core.log.filter fun x => match x with | .out (.lookupReply ..) => true | _ => false) =
    [.out (.lookupReply 130 1 "q" (some ⟨1, ⟨10, 110⟩, 0⟩)),
     .out (.lookupReply 130 2 "q" (some ⟨-1, ⟨21, 121⟩, 2⟩)),
     .out (.lookupReply 130 3 "q" (some ⟨-1, ⟨20, 120⟩, 3⟩)),
     .out (.lookupReply 130 4 "q" none)] := by decide +kernel

/-- A requester of another domain: `s` is only remote, so the answer is none. -/
example : ((demoRun (demoUp ++
    [.lookup { corr := 1, process := ⟨30, 130⟩, name := "s", requester := .external },
     .lookup { corr := 2, process := ⟨30, 130⟩, name := "r", requester := .external }])).core.log.filter fun x =>
      match x with | .out (.lookupReply ..) => true | _ => false) =
    [.out (.lookupReply 130 1 "s" none),
     .out (.lookupReply 130 2 "r" (some ⟨1, ⟨11, 111⟩, 0⟩))] := by decide +kernel

/-- C127 refuted.  A requester of another domain that waits for a queue is given a queue
of a third domain as soon as one is advertised. -/
theorem lookup_external_local_refuted :
    ¬ ∀ (env : Env) (dg : Nat) (model : Model) (np : Pid) (xs : List (Env × Input)) (pre post : List Item) (l : Lookup) (f : Found),
      (State.run env dg model np xs).core.log = pre ++ .out (.lookupReply l.process.ipc l.corr l.name (some f)) :: post →
      Item.inp (.lookup l) ∈ pre → l.requester = .external → f.order = 0 := by
  intro h
  have := h allReach 0 {} 10
    [(allReach, .lookup { corr := 1, process := ⟨30, 130⟩, name := "s", semantic := .wait, requester := .external }),
     (allReach, .advertise (adv ⟨21, 121⟩ 1 .update [qc "s"]))]
    [.inp (.lookup { corr := 1, process := ⟨30, 130⟩, name := "s", semantic := .wait, requester := .external }),
     .inp (.advertise (adv ⟨21, 121⟩ 1 .update [qc "s"]))] []
    { corr := 1, process := ⟨30, 130⟩, name := "s", semantic := .wait, requester := .external }
    ⟨-1, ⟨21, 121⟩, 2⟩ (by decide +kernel) (by decide +kernel) rfl
  exact absurd this (by decide)

end Casual.QManager
