import Verif.Service.Props
import Verif.Service.Wait

/-! # Properties of the service manager: those who wait -/
namespace Casual.Service

/-! ## C57: the caller of a server that dies is told -/

/-- Refuted: a server that withdraws (here because the domain is about to shut it down, or it wants to) still has the call to answer, but when it
dies the caller is not told. -/
theorem C57_told_refuted : ¬ ∀ (c : Config) (is : List In) (pid : Nat) (e : Env) (ipc : Nat) (t caller : Proc) (corr : Nat),
    served ipc ((State.init c).run is).tr = some (t, caller, corr) → t.pid = pid →
    ∃ es, (((State.init c).run is).step (.exit pid e)).tr = ((State.init c).run is).tr ++ .recv (.exit pid e) :: es ∧ .error caller.ipc (some corr) .serviceError ∈ es := by
  intro h
  obtain ⟨es, h1, h2⟩ := h exConf [exLocal, exLookup 10 100, .advertise ⟨1, 1⟩ 0 [] [] (exEnv 2)] 1 (exEnv 3) 1 ⟨1, 1⟩ ⟨10, 10⟩ 100 (by decide +kernel) rfl
  have : (((State.init exConf).run [exLocal, exLookup 10 100, .advertise ⟨1, 1⟩ 0 [] [] (exEnv 2)]).step (.exit 1 (exEnv 3))).tr =
      ((State.init exConf).run [exLocal, exLookup 10 100, .advertise ⟨1, 1⟩ 0 [] [] (exEnv 2)]).tr ++ .recv (.exit 1 (exEnv 3)) :: [] := by decide +kernel
  rw [this] at h1
  have := List.append_cancel_left h1
  simp only [List.cons.injEq, true_and] at this
  rw [← this] at h2
  cases h2

/-- As long as servers do not go otherwise than by dying (withdraw altogether, are reset, or could not be delivered a message), the caller that
waits for the reply of a server that dies gets an error as reply, with the correlation of the call. -/
theorem C57_told_partial (c : Config) (is : List In) (hm : ∀ m ∈ is, ¬ m.leaves) (pid : Nat) (e : Env) (ipc : Nat) (t caller : Proc) (corr : Nat)
    (hs : served ipc ((State.init c).run is).tr = some (t, caller, corr)) (hp : t.pid = pid) :
    ∃ es, (((State.init c).run is).step (.exit pid e)).tr = ((State.init c).run is).tr ++ .recv (.exit pid e) :: es ∧ .error caller.ipc (some corr) .serviceError ∈ es :=
  told (Inv5.run (Inv5.init c) is hm) pid e hs hp

-- one is served; another one, that has been served by the same server, is not any more
example : (∀ m ∈ [exLocal, exLookup 10 100, .ack ⟨1, 1⟩ 100 none (exEnv 2), exLookup 11 101], ¬ m.leaves) ∧
    served 1 ((State.init exConf).run [exLocal, exLookup 10 100, .ack ⟨1, 1⟩ 100 none (exEnv 2), exLookup 11 101]).tr = some (⟨1, 1⟩, ⟨11, 11⟩, 101) ∧
    (((State.init exConf).run [exLocal, exLookup 10 100, .ack ⟨1, 1⟩ 100 none (exEnv 2), exLookup 11 101]).step (.exit 1 (exEnv 3))).tr.drop 6 =
      [.recv (.exit 1 (exEnv 3)), .error 11 (some 101) .serviceError] := by
  refine ⟨?_, by decide +kernel, by decide +kernel⟩
  intro m hm
  simp only [List.mem_cons, List.not_mem_nil, or_false] at hm
  rcases hm with rfl | rfl | rfl | rfl
  · rintro ⟨h, -⟩; cases h
  · exact id
  · exact id
  · exact id

/-! ## C58: nobody waits for a server that is idle -/

/-- Refuted: the lookup that has got the server is discarded, and the next one still waits. -/
theorem C58_no_idle_wait_refuted : ¬ ∀ (c : Config) (_ : c.fatal = false) (is : List In) (l : Lookup) (ipc : Nat) (q : Proc) (ns : List Nat),
    l ∈ ((State.init c).run is).lookups → offers c.restriction ipc ((State.init c).run is).tr = some (q, ns) → l.req.name ∈ ns →
    (inUse ipc ((State.init c).run is).tr).isSome := by
  intro h
  have := h exConf rfl [exLocal, exLookup 10 100, exLookup 11 101, .discard ⟨10, 10⟩ 100 false] ⟨exReq 11 101 7, 1⟩ 1 ⟨1, 1⟩ [7] (by decide +kernel) (by decide +kernel) (by decide)
  revert this
  decide +kernel

/-- Without discards (and lookup replies that could not be delivered, shutdowns, and the fatal timeout contract), a lookup waits only while every local
server that offers the service is in use. -/
theorem C58_no_idle_wait_partial (c : Config) (hc : c.fatal = false) (is : List In) (hm : ∀ m ∈ is, ¬ m.frees) (l : Lookup) (ipc : Nat) (q : Proc) (ns : List Nat)
    (hl : l ∈ ((State.init c).run is).lookups) (ho : offers c.restriction ipc ((State.init c).run is).tr = some (q, ns)) (hn : l.req.name ∈ ns) :
    ∃ corr, inUse ipc ((State.init c).run is).tr = some (q, corr) := by
  obtain ⟨h3, hw⟩ := Inv6.run (Inv3.init c hc) (WInv.init c) is hm
  rw [← run_restriction c is] at ho
  obtain ⟨hq, i, hi⟩ := h3.2.known ipc q ns ho
  have hli := (h3.2.exact trivial).2 i q ns hi (by rw [hq]; exact ho) _ hn
  obtain ⟨x, hx, rfl⟩ := procs_some.mp hi
  have hb := hw.wait l hl i hli (by simp) x hx
  obtain ⟨k, hk⟩ := hw.busy i x hx hb
  exact ⟨k, by rw [← hq]; exact hk⟩

-- one waits, and the server is in use
example : (∀ m ∈ [exLocal, exLookup 10 100, exLookup 11 101], ¬ m.frees) ∧
    ((State.init exConf).run [exLocal, exLookup 10 100, exLookup 11 101]).lookups = [⟨exReq 11 101 7, 1⟩] ∧
    offers [] 1 ((State.init exConf).run [exLocal, exLookup 10 100, exLookup 11 101]).tr = some (⟨1, 1⟩, [7]) ∧
    inUse 1 ((State.init exConf).run [exLocal, exLookup 10 100, exLookup 11 101]).tr = some (⟨1, 1⟩, 100) := by
  refine ⟨?_, by decide +kernel, by decide +kernel, by decide +kernel⟩
  intro m hm
  simp only [List.mem_cons, List.not_mem_nil, or_false] at hm
  rcases hm with rfl | rfl | rfl <;> exact id

/-! ## C59: local instances first, refuted in general -/

/-- A server that is busy and about to be shut down, and advertises again: this is ignored, and calls go to remote instances. -/
theorem C59_local_first_refuted : ¬ ∀ (c : Config) (_ : c.fatal = false) (is : List In) (a : List Ev) (r : Req) (t : Proc) (left : Option Int),
    At ((State.init c).run is).tr a (.idle r .concurrent t left) → ∀ ipc q ns, offers c.restriction ipc a = some (q, ns) → r.name ∉ ns := by
  intro h
  have htr : ((State.init exConf).run [exLocal, exRemote 50 0 0, exLookup 10 100, .prepareShutdown ⟨9, 9⟩ 200 [⟨1, 1⟩] (exEnv 2), exLocal, exLookup 11 101]).tr =
      ((State.init exConf).run [exLocal, exRemote 50 0 0, exLookup 10 100, .prepareShutdown ⟨9, 9⟩ 200 [⟨1, 1⟩] (exEnv 2), exLocal, exLookup 11 101]).tr.take 7 ++ .idle (exReq 11 101 7) .concurrent ⟨50, 50⟩ none :: [] := by decide +kernel
  exact h exConf rfl _ _ _ _ _ ⟨[], htr⟩ 1 ⟨1, 1⟩ [7] (by decide +kernel) (by decide)

end Casual.Service
