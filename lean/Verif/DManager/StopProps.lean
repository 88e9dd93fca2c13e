import Verif.DManager.Stop

/-! Who the domain manager tells to stop, and what a request to scale or to restart may miss. -/
namespace Casual.DManager

/-- Whenever the domain manager does something to stop a process - asks the service manager to prepare it, asks it to shut down, sends it a
signal because of scaling, restart or shutdown - it is a process that it has spawned itself, never itself nor somebody else's.  Partial:
what is "no process" is excluded (`p ≠ 0`). -/
theorem only_own_processes_partial (lib : Lib) (hs : StableSort lib.sort) (u : Setup) (hu : u.Proper) (is : List Input)
    (hn : ∀ i ∈ is, i.notOf u.self.pid) {l1 l2 : List Item} {a : Item} {p : Pid}
    (hl : ((State.start lib u).run lib is).st.log = l1 ++ a :: l2)
    (ha : Answers ((State.start lib u).run lib is).st.log) (hp : p ≠ 0) (hst : a.stops p) :
    ∃ e, .spawned e p ∈ l1 := by
  have hi := (sinv_run hs is _ hn (start_sinv hs hu)).1.items
  have owned : ∀ {x y : List Item} {b : Item}, ((State.start lib u).run lib is).st.log = x ++ b :: y →
      ∀ hs, b = .prepare hs → ∀ h ∈ hs, Owned x h.pid := by
    intro x y b hxy hs hb
    have := hi x b y hxy
    rw [hb] at this
    exact this
  have fin : ∀ {q : Pid}, q = p → Owned l1 q ∨ Replied l1 q → ∃ e, .spawned e p ∈ l1 := by
    intro q hq ho
    subst hq
    rcases ho with ho | ⟨hs, h1, h, h2, h3⟩
    · rcases ho with ho | ho
      · exact absurd ho hp
      · exact ho
    · obtain ⟨x, y, hxy⟩ := List.append_of_mem h1
      have h4 : .prepare hs ∈ x := ha x (.inp (.prepareReply hs)) (y ++ a :: l2) (by rw [hl, hxy]; simp) hs rfl
      obtain ⟨x1, x2, hx⟩ := List.append_of_mem h4
      have h5 : Owned x1 h.pid := owned (x := x1) (y := x2 ++ .inp (.prepareReply hs) :: y ++ a :: l2)
        (by rw [hl, hxy, hx]; simp) hs rfl h h2
      rw [h3] at h5
      rcases h5 with h5 | ⟨e, h5⟩
      · exact absurd h5 hp
      · exact ⟨e, by rw [hxy, hx]; simp [h5]⟩
  have h := hi l1 a l2 hl
  cases a <;> first
    | exact absurd hst (fun h => h)
    | exact fin hst h
    | (obtain ⟨x, hx, hxp⟩ := hst; exact fin hxp (Or.inl (h x hx)))

/-- A restart tells the process that was spawned, and no other. -/
example : (demoRun [demoServer 1 6 false 1] [.own, .connect ⟨100, 1100⟩ 0 false, .restartAliases [1], .own]).st.log =
    [.spawned ⟨.server, 1⟩ 100, .inp .own, .inp (.connect ⟨100, 1100⟩ 0 false), .admitted ⟨100, 1100⟩ 0 false,
      .scaled [⟨.server, 1⟩], .bootDone, .approved ⟨100, 1100⟩ 0, .inp (.restartAliases [1]), .prepareOwn [⟨100, 1100⟩], .inp .own,
      .shutdownReq ⟨100, 1100⟩] ∧ (demoSetup [demoServer 1 6 false 1]).Proper ∧
    (∀ i ∈ [Input.own, .connect ⟨100, 1100⟩ 0 false, .restartAliases [1], .own], i.notOf 1) :=
  ⟨by decide +kernel, ⟨by decide +kernel, by decide +kernel⟩, by simp [Input.notOf]⟩

/-! ### What does not hold -/

/-- The full property: only processes that have been spawned are told to stop. -/
def OnlyOwn : Prop :=
  ∀ (lib : Lib) (u : Setup) (is : List Input), Sane lib u is → (∀ i ∈ is, i.notOf u.self.pid) →
    Answers ((State.start lib u).run lib is).st.log →
    Always (fun before a => ∀ p, a.stops p → ∃ e, .spawned e p ∈ before) ((State.start lib u).run lib is).st.log

/-- It does not hold: to restart an executable whose process has ended (and that is not to be restarted when it ends) is to send the
signal to the null process: `kill( -1, SIGTERM)`, that is, to every process the user may send signals to
(`create.cpp:250`). -/
theorem restart_signals_everybody_refuted : ¬ OnlyOwn := by
  intro h
  have hl : ((State.start demoLib (demoSetup [demoExe 1 6 false 1])).run demoLib [.own, .exit 100, .restartAliases [51]]).st.log =
      [.spawned ⟨.executable, 1⟩ 100, .scaled [⟨.executable, 1⟩], .bootDone, .inp .own, .inp (.exit 100),
        .inp (.restartAliases [51])] ++ .terminate 0 :: [] := by decide +kernel
  have := h demoLib (demoSetup [demoExe 1 6 false 1]) [.own, .exit 100, .restartAliases [51]]
    ⟨libstdcxxSort_stable, ⟨by decide +kernel, by decide +kernel⟩, unique_of_nodup (by decide +kernel) (by decide +kernel)⟩
    (by simp [Input.notOf, demoSetup]) (by
      rw [hl]
      intro x a y hxy hs ha
      have hm : a ∈ [Item.spawned ⟨.executable, 1⟩ 100, .scaled [⟨.executable, 1⟩], .bootDone, .inp .own, .inp (.exit 100),
        .inp (.restartAliases [51])] ++ .terminate 0 :: [] := by rw [hxy]; simp
      rw [ha] at hm
      simp at hm) _ _ _ hl 0 rfl
  obtain ⟨e, he⟩ := this
  simp at he

end Casual.DManager
