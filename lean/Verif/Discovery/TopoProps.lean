import Verif.Discovery.Topo
import Verif.Discovery.Content

/-!
  C151 and C152: topology updates and rediscoveries lead to what they have to.
-/
namespace Casual.Discovery

/-- The process is not told to stop, its timer is not armed, and no provider owes an answer about what it knows. -/
def Settled (s : State) : Prop :=
  Item.inp .shutdown ∉ s.log ∧ s.accumulate.deadline = false ∧ ∀ x ∈ owed s.log, x.part ≠ .known

theorem settled_facts {domain : Domain} {services : List SvcCfg} {xs : List (Env × Input)} (h : Settled (State.run domain services xs)) :
    (State.run domain services xs).shutdown = false ∧ (State.run domain services xs).accumulate.direct = [] ∧
    (State.run domain services xs).accumulate.implicit = [] ∧ (State.run domain services xs).known = [] := by
  have ho := run_ok domain services xs
  have hf := run_full domain services xs
  generalize State.run domain services xs = s at *
  obtain ⟨h1, h2, h3⟩ := h
  have hacc : s.accumulate.some = false := by
    cases h : s.accumulate.some
    · rfl
    · rw [ho.armed h] at h2; cases h2
  unfold Accumulate.some at hacc
  simp only [Bool.or_eq_false_iff, Bool.not_eq_false', List.isEmpty_iff] at hacc
  refine ⟨?_, hacc.1.2, hacc.2, ?_⟩
  · cases hs : s.shutdown
    · rfl
    · exact absurd (hf.stop hs) h1
  · cases hk : s.known with
    | nil => rfl
    | cons e es =>
      exfalso
      have he : e ∈ s.known := by rw [hk]; exact List.mem_cons_self ..
      obtain ⟨p, hp, hw⟩ := waits_some (ho.kwait e he)
      have hx := ho.knowns.owed p (List.mem_flatMap.mpr ⟨e, he, hp⟩) hw
      exact h3 _ (hx.elim False.elim id) rfl

/-- C151.  Once all is settled every new connection has been told to explore what is known in the domain (whatever every provider
that was registered and can tell has told since the update) and what is configured for it, and the upstream domains were told. -/
theorem new_connection_explores (domain : Domain) (services : List SvcCfg) (xs : List (Env × Input)) (hs : Settled (State.run domain services xs))
    (d : Direct) (hd : Item.inp (.direct d) ∈ (State.run domain services xs).log) : DirectDone domain services (State.run domain services xs).log d := by
  obtain ⟨h1, h2, h3, h4⟩ := settled_facts hs
  rcases (run_topo domain services xs).direct h1 d hd with h | ⟨e, he, _⟩ | ⟨x, hx, _⟩ | h
  · rw [h2] at h; cases h
  · rw [h4] at he; cases he
  · cases hx
  · exact h

/-- C151.  Once all is settled every update of another domain that does not name this one has led to an exploration over the
connection it came by, and was passed on to the upstream domains. -/
theorem update_explores_and_spreads (domain : Domain) (services : List SvcCfg) (xs : List (Env × Input)) (hs : Settled (State.run domain services xs))
    (i : Implicit) (hi : Item.inp (.implicit i) ∈ (State.run domain services xs).log) (hd : domain ∉ i.domains) :
    ImplicitDone domain services (State.run domain services xs).log i := by
  obtain ⟨h1, h2, h3, h4⟩ := settled_facts hs
  rcases (run_topo domain services xs).implicit h1 i hi hd with h | ⟨e, he, _⟩ | ⟨x, hx, _⟩ | h
  · rw [h3] at h; cases h
  · rw [h4] at he; cases he
  · cases hx
  · exact h

/-- C151.  A rediscovery asks every provider that can discover for everything that is known in the domain, as soon as no provider
owes an answer about what it knows. -/
theorem rediscovery_asks_for_all_known (domain : Domain) (services : List SvcCfg) (xs : List (Env × Input)) (c : Corr) (h : Handle)
    (ho : ∀ x ∈ owed (State.run domain services xs).log, x.part ≠ .known)
    (hi : Item.inp (.rediscovery c h) ∈ (State.run domain services xs).log) : RediscoveryDone services (State.run domain services xs).log c h := by
  have hk := run_ok domain services xs
  rcases (run_topo domain services xs).redisc c h hi with ⟨e, he, _⟩ | ⟨x, hx, _⟩ | h
  · exfalso
    obtain ⟨p, hp, hw⟩ := waits_some (hk.kwait e he)
    have hx := hk.knowns.owed p (List.mem_flatMap.mpr ⟨e, he, hp⟩) hw
    exact ho _ (hx.elim False.elim id) rfl
  · cases hx
  · exact h

/-! ### C152: who takes up an update -/

/-- Everybody who wants to know is told, by a message that the domain `x` would not ignore (it does not name `x`). -/
def SpreadFor (x : Domain) (log rest : List Item) : Prop :=
  ∀ q ∈ registered log, q.abilities.topology = true → ∃ all, Sent rest (.implicit q.process.ipc all) ∧ x ∉ all

/-- The update is passed on so that the domain `x` will take it up. -/
def Reaches (log : List Item) (i : Implicit) (x : Domain) : Prop :=
  ∃ start rest, log = start ++ rest ∧ Item.inp (.implicit i) ∈ start ∧ SpreadFor x start rest

theorem before_sub {before log : List Item} {y : Item} {after : List Item} (h : log = before ++ y :: after) {z : Item} (hz : z ∈ before) : z ∈ log := by
  rw [h]; exact List.mem_append.mpr (Or.inl hz)

/-- C152, in part: an update is passed on so that every domain takes it up that no update that was received names. -/
theorem update_reaches_unnamed_partial (domain : Domain) (services : List SvcCfg) (xs : List (Env × Input)) (hs : Settled (State.run domain services xs))
    (i : Implicit) (hi : Item.inp (.implicit i) ∈ (State.run domain services xs).log) (hd : domain ∉ i.domains)
    (x : Domain) (hx : x ≠ domain) (hn : ∀ j : Implicit, Item.inp (.implicit j) ∈ (State.run domain services xs).log → x ∉ j.domains) :
    Reaches (State.run domain services xs).log i x := by
  obtain ⟨start, mid, rest, e, hm, -, hsp⟩ := update_explores_and_spreads domain services xs hs i hi hd
  have hp := all_sent_is_proper domain services xs
  generalize State.run domain services xs = s at *
  refine ⟨start ++ mid, rest, e, List.mem_append.mpr (Or.inl hm), ?_⟩
  intro q hq ht
  obtain ⟨all, hsent, -, -⟩ := hsp q hq ht
  refine ⟨all, hsent, ?_⟩
  intro hxa
  have : ∃ before after, s.log = before ++ .out (.implicit q.process.ipc all) :: after ∨ s.log = before ++ .lost (.implicit q.process.ipc all) :: after := by
    rcases hsent with h | h
    · obtain ⟨a, b, h⟩ := List.append_of_mem h
      exact ⟨start ++ mid ++ a, b, Or.inl (by rw [e, h]; simp)⟩
    · obtain ⟨a, b, h⟩ := List.append_of_mem h
      exact ⟨start ++ mid ++ a, b, Or.inr (by rw [e, h]; simp)⟩
  obtain ⟨before, after, h⟩ := this
  obtain ⟨-, -, h1⟩ := hp before _ after h
  rcases h1 x hxa with h1 | ⟨j, hj, h1⟩
  · exact hx h1
  · refine hn j ?_ h1
    rcases h with h | h <;> exact before_sub h hj

/-- Two connections to other domains, upstream and downstream; `11` wants to know of updates. -/
def twoUpdates : List (Env × Input) :=
  [(quiet, .registration 1 ⟨1, 11⟩ { topology := true }),
   (quiet, .implicit ⟨⟨2, 12⟩, [5], 1⟩), (quiet, .implicit ⟨⟨3, 13⟩, [6], 2⟩), (quiet, .timeout)]

/-- C152 does not hold: updates of the domains 5 and 6 that come close together are passed on as one that names both, so the domain
5 that is upstream ignores it, and never learns of the update of 6. -/
theorem merged_updates_lost_refuted :
    ∃ (i : Implicit) (x : Domain), Settled (State.run 0 [] twoUpdates) ∧ Item.inp (.implicit i) ∈ (State.run 0 [] twoUpdates).log ∧
      0 ∉ i.domains ∧ x ≠ 0 ∧ x ∉ i.domains ∧ ¬ Reaches (State.run 0 [] twoUpdates).log i x := by
  refine ⟨⟨⟨3, 13⟩, [6], 2⟩, 5, (by unfold Settled; decide +kernel), (by decide +kernel), (by decide +kernel), (by decide +kernel), (by decide +kernel), ?_⟩
  have hlog : (State.run 0 [] twoUpdates).log = [.inp (.registration 1 ⟨1, 11⟩ { topology := true }),
      .out (.registrationReply ⟨1, 11⟩ 1 { topology := true }), .inp (.implicit ⟨⟨2, 12⟩, [5], 1⟩),
      .inp (.implicit ⟨⟨3, 13⟩, [6], 2⟩), .inp .timeout, .out (.implicit 11 [5, 6, 0])] := by decide +kernel
  rw [hlog]
  rintro ⟨start, rest, e, hi, h⟩
  have key : ∀ n ≤ 6, start.length = n → False := by
    intro n hn hl
    have hst : start = _ := (by rw [← hl, e]; simp : start = List.take n [Item.inp (.registration 1 ⟨1, 11⟩ { topology := true }),
      .out (.registrationReply ⟨1, 11⟩ 1 { topology := true }), .inp (.implicit ⟨⟨2, 12⟩, [5], 1⟩),
      .inp (.implicit ⟨⟨3, 13⟩, [6], 2⟩), .inp .timeout, .out (.implicit 11 [5, 6, 0])])
    have hr : rest = _ := (by rw [← hl, e]; simp : rest = List.drop n [Item.inp (.registration 1 ⟨1, 11⟩ { topology := true }),
      .out (.registrationReply ⟨1, 11⟩ 1 { topology := true }), .inp (.implicit ⟨⟨2, 12⟩, [5], 1⟩),
      .inp (.implicit ⟨⟨3, 13⟩, [6], 2⟩), .inp .timeout, .out (.implicit 11 [5, 6, 0])])
    have hn4 : 4 ≤ n := by
      rcases Nat.lt_or_ge n 4 with h | h
      · exfalso
        rw [hst] at hi
        rcases (by omega : n = 0 ∨ n = 1 ∨ n = 2 ∨ n = 3) with rfl | rfl | rfl | rfl <;> revert hi <;> decide +kernel
      · exact h
    have hreg : (⟨⟨1, 11⟩, { topology := true }⟩ : Provider) ∈ registered start := by
      rw [hst]
      rcases (by omega : n = 4 ∨ n = 5 ∨ n = 6) with rfl | rfl | rfl <;> decide +kernel
    obtain ⟨all, hsent, hx⟩ := h _ hreg rfl
    rw [hr] at hsent
    have : all = [5, 6, 0] := by
      have : Item.out (.implicit 11 all) = .out (.implicit 11 [5, 6, 0]) := by
        rcases hsent with h | h
        · have h := List.mem_of_mem_drop h
          simpa using h
        · have h := List.mem_of_mem_drop h
          simp at h
      injection this with this
      injection this
    rw [this] at hx
    exact hx (by decide +kernel)
  refine key start.length ?_ rfl
  have := congrArg List.length e
  simp at this
  omega

/-! ### A concrete case -/

/-- A new connection, an update and a rediscovery; one provider tells what it knows, another one goes. -/
example :
    let xs := [(quiet, Input.registration 1 ⟨1, 11⟩ { discover := true, topology := true }), (quiet, .registration 2 ⟨2, 12⟩ { fetchKnown := true }),
      (quiet, .registration 3 ⟨3, 13⟩ { fetchKnown := true }), (quiet, .direct ⟨⟨1, 11⟩, { queues := [9] }, 4⟩),
      (quiet, .implicit ⟨⟨7, 17⟩, [5], 5⟩), (quiet, .timeout), (quiet, .rediscovery 8 ⟨6, 16⟩),
      (quiet, .knownReply 0 { services := [30] }), (quiet, .exit 3), (quiet, .knownReply 2 { services := [30] })]
    let s := State.run 0 [⟨20, [30, 31]⟩] xs
    Settled s ∧ Item.out (.explore 11 { services := [20], queues := [9] }) ∈ s.log ∧ Item.out (.explore 17 { services := [20], queues := [9] }) ∈ s.log ∧
    Item.out (.implicit 11 [5, 0]) ∈ s.log ∧ Item.out (.request ⟨1, 11⟩ 4 { services := [20] }) ∈ s.log := by
  unfold Settled
  decide +kernel

end Casual.Discovery
