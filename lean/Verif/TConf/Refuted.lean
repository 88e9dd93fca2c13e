import Verif.TConf.Present
/-
  What is not so, and cases that the theorems are about.
-/
namespace Casual.TConf
open Casual.Task

/-- A resource with two instances, and an alias that uses it. -/
def exModel : Model := { resources := [{ name := 1, key := 7, instances := 2, info := 1 }], mappings := [(5, [1])] }

/-- The same, but something of the resource is different. -/
def exChanged : Model := { exModel with resources := [{ name := 1, key := 7, instances := 2, info := 2 }] }

/-- The same without the resource. -/
def exGone : Model := { exModel with resources := [] }

/-- Both instances are ready. -/
def exUp : List Ev := [.ask 1 1, .ask 1 2, .ready 1 1, .ready 1 2]

/-- What runs, with what it has been told. -/
def State.running (st : State) : List (Nat × Nat × List Nat) := st.proxies.map fun p => (p.conf.name, p.conf.info, (p.insts.filter Inst.running).filterMap fun i => i.told.map (·.info))

/-- A resource is modified, and the first instance ends as asked: the update is answered and there is nothing left to do, but there is only one instance, with the configuration from before. -/
theorem restart_refuted : ∃ (keys : List Nat) (m m' : Model) (es : List Ev),
    let c := run (boot keys [] m) (es ++ [.update 9 m', .exit 1, .exit 1])
    m.resources = [{ name := 1, key := 7, instances := 2, info := 1 }] ∧ m'.resources = [{ name := 1, key := 7, instances := 2, info := 2 }]
    ∧ c.conts = [] ∧ c.st.dead = false ∧ c.st.sent.count (.reply 9) = 1 ∧ c.st.sent.count (.stop 1) = 1 ∧ c.st.running = [(1, 2, [1])] := ⟨[7], exModel, exChanged, exUp, by decide +kernel⟩

/-- An instance dies: nothing takes its place. -/
theorem crash_refuted : ∃ (keys : List Nat) (m : Model) (es : List Ev),
    let c := run (boot keys [] m) (es ++ [.exit 1, .exit 1])
    c.conts = [] ∧ c.st.dead = false ∧ c.st.proxies.map (fun p => (p.conf.instances, p.running)) = [(2, 1)] := ⟨[7], exModel, exUp, by decide +kernel⟩

/-- A process can not be started: it is not tried again. -/
theorem spawn_refuted : ∃ (keys : List Nat) (m : Model) (es : List Ev),
    let c := run (boot keys [true] m) es
    c.conts = [] ∧ c.st.dead = false ∧ c.st.proxies.map (fun p => (p.conf.instances, p.running)) = [(2, 1)] := ⟨[7], exModel, [.ask 1 1, .ready 1 1], by decide +kernel⟩

/-- A resource is removed, with mappings as before: when a server of the alias asks for its resources the manager ends. -/
theorem alias_refuted : ∃ (keys : List Nat) (m m' : Model) (es : List Ev),
    let c := run (boot keys [] m) (es ++ [.update 9 m', .exit 1, .exit 2, .exit 2, .exit 1])
    c.conts = [] ∧ c.st.dead = false ∧ c.st.sent.count (.reply 9) = 1 ∧ m'.mappings = [(5, [1])] ∧ c.st.aliasReply 5 [] = none ∧ (step c (.alias 5 [])).st.dead = true :=
  ⟨[7], exModel, exGone, exUp, by decide +kernel⟩

/-- A resource is removed, and posted again before its instances have ended: both updates are answered, and the resource is not there. -/
theorem readd_refuted : ∃ (keys : List Nat) (m m' : Model) (es : List Ev),
    let c := run (boot keys [] m) (es ++ [.update 9 m', .update 10 m, .exit 1, .exit 2, .exit 2, .exit 1])
    m.resources.length = 1 ∧ c.conts = [] ∧ c.st.dead = false ∧ c.st.sent.count (.reply 9) = 1 ∧ c.st.sent.count (.reply 10) = 1 ∧ c.st.proxies = [] := ⟨[7], exModel, exGone, exUp, by decide +kernel⟩

/-- Both instances have died, and one less is posted: the manager takes the end of an empty range, less one. -/
theorem undefined_refuted : ∃ (keys : List Nat) (m m' : Model) (es : List Ev),
    let c := run (boot keys [] m) (es ++ [.exit 1, .exit 2, .update 9 m'])
    m'.resources.map (·.instances) = [1] ∧ c.st.undef = true := ⟨[7], exModel, { exModel with resources := [{ name := 1, key := 7, instances := 1, info := 1 }] }, exUp, by decide +kernel⟩

/-! ### Cases -/

/-- Another resource is added. -/
def exMore : Model := { resources := exModel.resources ++ [{ name := 2, key := 8, instances := 1, info := 3 }], mappings := [(5, [1]), (4, [2, 1, 3])] }

/-- What is said in `scaled_partial`, `told_partial` and `alias_partial`. -/
example : Quiet (boot [7, 8] [] exModel) (exUp ++ [.update 9 exMore, .ask 2 3, .ready 2 3]) := by
  simp only [exUp, List.cons_append, List.nil_append, Quiet, quiet, true_and, and_true]
  decide +kernel

example : (run (boot [7, 8] [] exModel) (exUp ++ [.update 9 exMore, .ask 2 3, .ready 2 3])).conts = [] := by decide +kernel

example : (run (boot [7, 8] [] exModel) (exUp ++ [.update 9 exMore, .ask 2 3, .ready 2 3])).st.running = [(1, 1, [1, 1]), (2, 3, [3])] := by decide +kernel

example : Keeps (boot [7, 8] [] exModel) (exUp ++ [.update 9 exMore, .ask 2 3, .ready 2 3]) := by
  simp only [exUp, List.cons_append, List.nil_append, Keeps, keeps, true_and, and_true]
  decide +kernel

example : (run (boot [7, 8] [] exModel) (exUp ++ [.update 9 exMore, .ask 2 3, .ready 2 3])).st.aliasReply 4 [] = some [2, 1] := by decide +kernel

/-- A resource is removed: its instances are asked to stop, and when they have it is gone. -/
example : (run (boot [7] [] exModel) (exUp ++ [.update 9 {}])).st.sent = [.stop 1, .stop 2] := by decide +kernel

example : (run (boot [7] [] exModel) (exUp ++ [.update 9 {}, .exit 1, .exit 1, .exit 2, .exit 2])).st.sent = [.stop 1, .stop 2, .reply 9]
    ∧ (run (boot [7] [] exModel) (exUp ++ [.update 9 {}, .exit 1, .exit 1, .exit 2, .exit 2])).st.proxies = [] := by decide +kernel

/-- What is said in `present_partial`: a resource is changed and one is added, one that the system does not have is left out. -/
def exBoth : Model := { resources := [{ name := 1, key := 7, instances := 3, info := 2 }, { name := 2, key := 8, instances := 1, info := 3 }, { name := 3, key := 9 }] }

example : Named exModel ∧ Clean (exUp ++ [.update 9 exBoth]) ∧ Keeps (boot [7, 8] [] exModel) (exUp ++ [.update 9 exBoth])
    ∧ posted exModel (exUp ++ [.update 9 exBoth]) = exBoth ∧ (run (boot [7, 8] [] exModel) (exUp ++ [.update 9 exBoth])).st.dead = false
    ∧ (run (boot [7, 8] [] exModel) (exUp ++ [.update 9 exBoth])).st.confs = exBoth.resources.take 2 := by
  refine ⟨by decide +kernel, fun k m hm => ?_, ?_, rfl, by decide +kernel, by decide +kernel⟩
  · simp only [exUp, List.mem_append, List.mem_cons, List.not_mem_nil, or_false, reduceCtorEq, false_or, Ev.update.injEq] at hm
    obtain ⟨_, rfl⟩ := hm
    decide +kernel
  · simp only [exUp, List.cons_append, List.nil_append, Keeps, keeps, true_and, and_true]
    decide +kernel

end Casual.TConf
