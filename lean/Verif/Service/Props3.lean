import Verif.Service.Props2
import Verif.Service.Time
import Verif.Service.Due
import Verif.Service.Late
import Verif.Service.Bound

/-! # Properties of the service manager: time -/
namespace Casual.Service

/-! ## C67: the caller's own deadline bounds the time left it is told -/

/-- A caller with a deadline of its own that gets an instance is told a time left that is not more than it has (the correlation tells lookups apart). -/
theorem C67_time_left (c : Config) (is : List In) (hs : SameRequest ((State.init c).run is).tr) (a : List Ev) (r : Req) (kind : Kind) (t : Proc) (left : Option Int)
    (h : At ((State.init c).run is).tr a (.idle r kind t left)) (hk : kind ≠ .forward) (dl : Time) (hd : r.deadline = some dl) :
    ∃ now x, clock a = some now ∧ left = some x ∧ x ≤ dl - now :=
  (TInv.run (Inv.init c) (TInv.init c) is).good hs a _ h hk dl hd

/-- `SameRequest` from the number of lookups. -/
theorem SameRequest.of {tr : List Ev} (h : ∀ k, asked k tr ≤ 1) : SameRequest tr := by
  intro r r' e e' h1 h2 hc
  have h3 := h r.corr
  obtain ⟨a, b, rfl⟩ := List.append_of_mem h1
  simp only [asked, List.countP_append, List.countP_cons, isAsked, beq_self_eq_true, if_true] at h3
  have hz : ∀ l : List Ev, l.countP (isAsked r.corr) = 0 → .recv (.lookup r' e') ∉ l := by
    intro l hl hm
    have := List.countP_pos_iff.mpr ⟨_, hm, show isAsked r.corr (.recv (.lookup r' e')) = true by simp [isAsked, hc]⟩
    omega
  rcases List.mem_append.mp h2 with h2 | h2
  · exact absurd h2 (hz a (by omega))
  · rcases List.mem_cons.mp h2 with h2 | h2
    · cases h2; rfl
    · exact absurd h2 (hz b (by omega))

/-- One is served at once, the other one has to wait until 6; both are told what is left of their deadline (20). -/
def exTwo : List In := [exLocal, .lookup (exReqD 10 100 20) (exEnv 1), .lookup (exReqD 11 101 20) (exEnv 2), .ack ⟨1, 1⟩ 100 none (exEnv 6)]

def exTwoTr : List Ev :=
  [.recv exLocal, .recv (.lookup (exReqD 10 100 20) (exEnv 1)), .idle (exReqD 10 100 20) .sequential ⟨1, 1⟩ (some 19),
   .recv (.lookup (exReqD 11 101 20) (exEnv 2)), .recv (.ack ⟨1, 1⟩ 100 none (exEnv 6)), .idle (exReqD 11 101 20) .sequential ⟨1, 1⟩ (some 14)]

theorem exTwo_tr : ((State.init exConf).run exTwo).tr = exTwoTr := by decide +kernel

theorem exTwo_asked (k : Nat) : asked k exTwoTr ≤ 1 := by
  simp only [asked, exTwoTr, exLocal, List.countP_cons, List.countP_nil, isAsked, exReqD, exReq]
  by_cases h : 100 = k
  · subst h; decide
  · by_cases h' : 101 = k
    · subst h'; decide
    · simp [h, h']

theorem exTwo_honest : AllGood HonestAck exTwoTr := by
  intro a e ⟨b, hb⟩
  match e with
  | .recv (.ack p k tr e) =>
    have h4 : exTwoTr[a.length]? = some (.recv (.ack p k tr e)) := by rw [hb]; simp
    have hlen : a.length = 4 := by
      match hl : a.length with
      | 0 | 1 | 2 | 3 | 5 => rw [hl] at h4; simp [exTwoTr, exLocal] at h4
      | 4 => rfl
      | n + 6 => rw [hl] at h4; simp [exTwoTr] at h4
    rw [hlen] at h4
    have ha : a = exTwoTr.take 4 := by rw [hb, ← hlen]; simp
    have hp : p = ⟨1, 1⟩ ∧ k = 100 := by simp [exTwoTr] at h4; exact ⟨h4.1.symm, h4.2.1.symm⟩
    obtain ⟨rfl, rfl⟩ := hp
    intro ipc t c hs
    rw [ha] at hs
    simp only [served, exTwoTr, List.take_succ_cons, List.take_zero, List.foldl_cons, List.foldl_nil, servedStep, exLocal] at hs
    split at hs
    · rename_i h; exact h.symm
    · cases hs
  | .recv (.advertise ..) | .recv (.cadvertise ..) | .recv (.creset ..) | .recv (.cinstance ..) | .recv (.lookup ..) | .recv (.discard ..) | .recv (.exit ..)
  | .recv (.prepareShutdown ..) | .recv (.alarm ..) | .recv (.discovered ..) | .recv (.disassociate ..) | .recv (.undelivered ..) => trivial
  | .idle .. | .absent .. | .timedOut .. | .error .. | .assassinate .. | .shutdown .. | .discarded .. | .discover .. | .rollback .. => trivial

example : SameRequest exTwoTr ∧ At exTwoTr (exTwoTr.take 5) (.idle (exReqD 11 101 20) .sequential ⟨1, 1⟩ (some 14)) ∧ clock (exTwoTr.take 5) = some 6 :=
  ⟨SameRequest.of exTwo_asked, ⟨[], rfl⟩, by decide +kernel⟩

/-! ## C68: a call past its deadline is ended, and only such a call -/

/-- Refuted: the call to a server that has withdrawn is not ended when it is due. -/
theorem C68_ended_refuted : ¬ ∀ (c : Config) (is : List In) (_ : ∀ k, asked k ((State.init c).run is).tr ≤ 1) (_ : AllGood HonestAck ((State.init c).run is).tr)
    (ipc : Nat) (t caller : Proc) (k : Nat) (dl : Time) (_ : served ipc ((State.init c).run is).tr = some (t, caller, k))
    (_ : due ipc ((State.init c).run is).tr = some dl) (e : Env) (_ : dl < e.now),
    ∃ es, (((State.init c).run is).step (.alarm e)).tr = ((State.init c).run is).tr ++ .recv (.alarm e) :: es ∧
      .error caller.ipc (some k) .timeout ∈ es ∧ .assassinate t.pid ∈ es := by
  intro h
  have htr : ((State.init exConf).run [exLocal, .lookup (exReqD 10 100 20) (exEnv 1), .advertise ⟨1, 1⟩ 0 [] [] (exEnv 2)]).tr =
      [.recv exLocal, .recv (.lookup (exReqD 10 100 20) (exEnv 1)), .idle (exReqD 10 100 20) .sequential ⟨1, 1⟩ (some 19), .recv (.advertise ⟨1, 1⟩ 0 [] [] (exEnv 2))] := by
    decide +kernel
  obtain ⟨es, h1, h2, -⟩ := h exConf [exLocal, .lookup (exReqD 10 100 20) (exEnv 1), .advertise ⟨1, 1⟩ 0 [] [] (exEnv 2)]
    (by
      intro k
      rw [htr]
      simp only [asked, exLocal, List.countP_cons, List.countP_nil, isAsked]
      by_cases hk : (exReqD 10 100 20).corr = k <;> simp [hk])
    (by
      rw [htr]
      intro a e ⟨b, hb⟩
      match e with
      | .recv (.ack p k tr e) =>
        have : Ev.recv (.ack p k tr e) ∈ a ++ .recv (.ack p k tr e) :: b := by simp
        rw [← hb] at this
        simp [exLocal] at this
      | .recv (.advertise ..) | .recv (.cadvertise ..) | .recv (.creset ..) | .recv (.cinstance ..) | .recv (.lookup ..) | .recv (.discard ..) | .recv (.exit ..)
      | .recv (.prepareShutdown ..) | .recv (.alarm ..) | .recv (.discovered ..) | .recv (.disassociate ..) | .recv (.undelivered ..) => trivial
      | .idle .. | .absent .. | .timedOut .. | .error .. | .assassinate .. | .shutdown .. | .discarded .. | .discover .. | .rollback .. => trivial)
    1 ⟨1, 1⟩ ⟨10, 10⟩ 100 20 (by decide +kernel) (by decide +kernel) (exEnv 21) (by decide)
  have : (((State.init exConf).run [exLocal, .lookup (exReqD 10 100 20) (exEnv 1), .advertise ⟨1, 1⟩ 0 [] [] (exEnv 2)]).step (.alarm (exEnv 21))).tr =
      ((State.init exConf).run [exLocal, .lookup (exReqD 10 100 20) (exEnv 1), .advertise ⟨1, 1⟩ 0 [] [] (exEnv 2)]).tr ++ .recv (.alarm (exEnv 21)) :: [] := by decide +kernel
  rw [this] at h1
  have := List.append_cancel_left h1
  simp only [List.cons.injEq, true_and] at this
  rw [← this] at h2
  cases h2

/-- Somebody awaits the reply of a call, and when the timer goes off the call is past the time it was told to have: the caller gets the error that it has
timed out, and the server is killed. Lookups have different correlations, only who serves a call acknowledges it, and servers go by dying only. -/
theorem C68_ended_partial (c : Config) (is : List In) (hm : ∀ m ∈ is, ¬ m.leaves) (ho : ∀ k, asked k ((State.init c).run is).tr ≤ 1)
    (hh : AllGood HonestAck ((State.init c).run is).tr) (ipc : Nat) (t caller : Proc) (k : Nat) (dl : Time)
    (hs : served ipc ((State.init c).run is).tr = some (t, caller, k)) (hd : due ipc ((State.init c).run is).tr = some dl) (e : Env) (hlt : dl < e.now) :
    ∃ es, (((State.init c).run is).step (.alarm e)).tr = ((State.init c).run is).tr ++ .recv (.alarm e) :: es ∧
      .error caller.ipc (some k) .timeout ∈ es ∧ .assassinate t.pid ∈ es :=
  ended (Inv5.run (Inv5.init c) is hm) (EInv.run c is ho hh) (BInv.run (Inv.init c) (BInv.init c) is False.elim) ho hs hd e hlt

/-- A caller is told that a call has timed out only if it awaits the reply of it, and it is past the time it was told to have; and a server is killed only
because of that, and only the one that serves the call. -/
theorem C68_only_late (c : Config) (is : List In) (ho : ∀ k, asked k ((State.init c).run is).tr ≤ 1) (a : List Ev) (e : Ev) (h : At ((State.init c).run is).tr a e) : GoodEnd a e :=
  (RInv.run c is ho).good a e h

-- the hypotheses, and what happens at 21
example : (∀ m ∈ exTwo, ¬ m.leaves) ∧ (∀ k, asked k ((State.init exConf).run exTwo).tr ≤ 1) ∧ AllGood HonestAck ((State.init exConf).run exTwo).tr ∧
    served 1 ((State.init exConf).run exTwo).tr = some (⟨1, 1⟩, ⟨11, 11⟩, 101) ∧ due 1 ((State.init exConf).run exTwo).tr = some 20 ∧
    (((State.init exConf).run exTwo).step (.alarm (exEnv 21))).tr.drop 6 = [.recv (.alarm (exEnv 21)), .error 11 (some 101) .timeout, .assassinate 1] := by
  rw [exTwo_tr]
  refine ⟨?_, exTwo_asked, exTwo_honest, by decide +kernel, by decide +kernel, by decide +kernel⟩
  intro m hm
  simp only [exTwo, List.mem_cons, List.not_mem_nil, or_false] at hm
  rcases hm with rfl | rfl | rfl | rfl
  · rintro ⟨h, -⟩; cases h
  · exact id
  · exact id
  · exact id

/-! ## C69: the configured timeout bounds the time left -/

def exConfT : Config := { exConf with timeout := some 50 }

/-- Refuted: the timeout configured for the domain (50) does not apply to a service that is offered locally, if another domain that has no timeout for it
was the first to offer it. -/
theorem C69_bound_refuted : ¬ ∀ (d : Int) (_ : 0 < d) (c : Config) (_ : c.timeout = some d) (is : List In) (_ : AllGood Forward ((State.init c).run is).tr)
    (a : List Ev) (r : Req) (t : Proc) (left : Option Int) (_ : At ((State.init c).run is).tr a (.idle r .sequential t left)), ∃ x, left = some x ∧ x ≤ d := by
  intro h
  have htr : ((State.init exConfT).run [exRemote 2 0 0, exLocal, exLookup 10 100]).tr =
    [.recv (exRemote 2 0 0), .recv exLocal, .recv (exLookup 10 100)] ++ [.idle (exReq 10 100 7) .sequential ⟨1, 1⟩ none] := by decide +kernel
  obtain ⟨x, hx, -⟩ := h 50 (by decide) exConfT rfl [exRemote 2 0 0, exLocal, exLookup 10 100] (by
    rw [htr]
    refine AllGood.append (AllGood.snoc (AllGood.snoc (tr := [.recv (exRemote 2 0 0)]) (AllGood.snoc (tr := []) AllGood.nil ?_) ?_) ?_) ?_
    · intro t now h; cases h
    · intro t now h1 h2; cases h1; cases h2; decide
    · intro t now h1 h2; cases h1; cases h2; decide
    · intro a e he; rw [List.mem_singleton] at he; subst he; trivial)
    _ (exReq 10 100 7) ⟨1, 1⟩ none (by rw [htr]; exact ⟨[], rfl⟩)
  cases hx

/-- If the services other domains offer have a timeout that is not more than the one configured, nobody that gets an instance is told to have more time than that. -/
theorem C69_bound_partial (d : Int) (h0 : 0 < d) (c : Config) (hc : c.timeout = some d) (is : List In) (hw : ∀ m ∈ is, m.within d) (hf : AllGood Forward ((State.init c).run is).tr)
    (a : List Ev) (r : Req) (kind : Kind) (t : Proc) (left : Option Int) (h : At ((State.init c).run is).tr a (.idle r kind t left)) (hk : kind ≠ .forward) : ∃ x, left = some x ∧ x ≤ d :=
  (LInv.run h0 c hc is hw hf).good a _ h hk

-- the hypotheses: one with a deadline later than the timeout allows, that has to wait for 5
example : let is := [exLocal, .lookup (exReqD 10 100 90) (exEnv 1), .lookup (exReqD 11 101 90) (exEnv 2), .ack ⟨1, 1⟩ 100 none (exEnv 7)]
    (∀ m ∈ is, m.within 50) ∧ AllGood Forward ((State.init exConfT).run is).tr ∧
    At ((State.init exConfT).run is).tr (((State.init exConfT).run is).tr.take 5) (.idle (exReqD 11 101 90) .sequential ⟨1, 1⟩ (some 45)) := by
  have htr : ((State.init exConfT).run [exLocal, .lookup (exReqD 10 100 90) (exEnv 1), .lookup (exReqD 11 101 90) (exEnv 2), .ack ⟨1, 1⟩ 100 none (exEnv 7)]).tr =
    [] ++ [.recv exLocal] ++ [.recv (.lookup (exReqD 10 100 90) (exEnv 1))] ++ [.idle (exReqD 10 100 90) .sequential ⟨1, 1⟩ (some 50)] ++ [.recv (.lookup (exReqD 11 101 90) (exEnv 2))] ++
    [.recv (.ack ⟨1, 1⟩ 100 none (exEnv 7))] ++ [.idle (exReqD 11 101 90) .sequential ⟨1, 1⟩ (some 45)] := by decide +kernel
  intro is
  refine ⟨?_, ?_, ?_⟩
  · intro m hm
    simp only [is, List.mem_cons, List.not_mem_nil, or_false] at hm
    rcases hm with rfl | rfl | rfl | rfl <;> trivial
  · rw [htr]
    refine ((((((AllGood.nil.snoc ?_).snoc ?_).snoc ?_).snoc ?_).snoc ?_).snoc ?_)
    · intro t now h; cases h
    · intro t now h1 h2; cases h1; cases h2; decide
    · trivial
    · intro t now h1 h2; cases h1; cases h2; decide
    · intro t now h1 h2; cases h1; cases h2; decide
    · trivial
  · rw [htr]; exact ⟨[], rfl⟩

end Casual.Service
