import Verif.GConf.Ended
/-
  Whatever groups die while the manager is running, and whenever: all are started again.
-/
namespace Casual.GConf
open Casual.Task

/-! ### Specification -/

/-- It is about groups: nothing is posted. -/
def Ev.ofGroup : Ev → Prop
  | .update _ _ => False
  | .shutdown => False
  | _ => True

/-! ### Proof -/

/-- The groups that there are and those that are to be started are those that there were. -/
def Whole (L : List Conf) (st : State) (W : List Act) : Prop := (st.groups.map (·.conf) ++ adds W).Perm L ∧ st.level = .running ∧ st.fails = []

/-- Groups are started. -/
def Act.starts : Act → Prop
  | .added _ _ => True
  | _ => False

variable {L : List Conf}

theorem whole_kept : Kept (Whole L) Act.starts (fun _ => True) := by
  refine ⟨fun a b st W ha _ h => ⟨?_, trivial⟩, fun b m f st W _ e hj => ⟨by rw [handle_state e]; exact hj, trivial⟩⟩
  cases a with
  | added s cs =>
    obtain ⟨h1, h2, h3⟩ := h
    obtain ⟨f1, f2⟩ := spawns_full cs st h3
    obtain ⟨s1, _, s3, _⟩ := spawns_spec cs st
    show Whole L (added s cs b st).1 W
    rw [added_state]
    refine ⟨?_, s3.trans h2, f1⟩
    show (((spawns cs st).1.groups ++ (spawns cs st).2).map (·.conf) ++ adds W).Perm L
    rw [List.map_append, s1, f2, List.append_assoc]
    have : adds (.added s cs :: W) = cs ++ adds W := by unfold adds; rw [List.flatMap_cons]
    rw [this] at h1
    exact h1
  | modified s cs => cases ha
  | removed s cs => cases ha
  | reply k => cases ha
  | booted => cases ha

theorem erase_conf {q : Group → Bool} {g : Group} : ∀ {gs : List Group}, gs.find? q = some g → (gs.map (·.conf)).Perm (g.conf :: (gs.eraseP q).map (·.conf)) := by
  intro gs
  induction gs with
  | nil => intro h; cases h
  | cons x xs ih =>
    intro h
    rw [List.find?_cons] at h
    rw [List.eraseP_cons]
    cases hq : q x with
    | true =>
      rw [hq] at h
      cases h
      exact .refl _
    | false =>
      rw [hq] at h
      simp only [List.map_cons, Bool.false_eq_true, if_false]
      exact ((ih h).cons x.conf).trans (.swap ..)

theorem step_whole {c : Mgr} (e : Ev) (he : e.ofGroup) (h : GoodM (Whole L) Act.starts (fun _ => True) c) : GoodM (Whole L) Act.starts (fun _ => True) (step c e) := by
  unfold step
  split
  · exact h
  · cases e with
    | exit pid =>
      show GoodM _ _ _ (onExit c pid)
      unfold onExit
      dsimp only
      refine msg_good whole_kept _ ?_
      split
      · exact h
      · rename_i g e
        rw [if_pos h.holds.2.1]
        refine push_good whole_kept ⟨?_, h.holds.2⟩ h.units h.front (fun x hx => by rw [List.mem_singleton.1 hx]; exact ⟨trivial, trivial⟩)
        show ((c.st.groups.eraseP (Group.isProc pid)).map (·.conf) ++ adds (pend c.conts ++ [.added g.conf.side [g.conf]])).Perm L
        have : adds (pend c.conts ++ [.added g.conf.side [g.conf]]) = adds (pend c.conts) ++ [g.conf] := by
          unfold adds
          rw [List.flatMap_append]
          rfl
        rw [this]
        refine List.Perm.trans ?_ h.holds.1
        refine List.Perm.trans ?_ ((erase_conf e).symm.append_right _)
        rw [← List.append_assoc]
        exact List.perm_append_singleton ..
    | connect s pid =>
      refine on_good h fun W hj => ⟨?_, hj.2⟩
      show ((changeFirst (fun g => g.conf.side == s && g.pid == pid) (fun g => { g with ipc := true, told := some g.conf }) c.st.groups).map (·.conf) ++ adds W).Perm L
      rw [changeFirst_map (f := fun g => { g with ipc := true, told := some g.conf }) (·.conf) (fun _ => rfl)]
      exact hj.1
    | reply s pid => exact msg_good whole_kept _ h
    | update k w => cases he
    | shutdown => cases he

/-- If the manager is running, nothing is under way and all processes can be started: whatever groups die after that, in whatever order and while others are started, no group is lost. When nothing is under
way again there are as many of each as before. -/
theorem all_restarted (fails : List Bool) (wanted : List Conf) (es0 es : List Ev) (hc : (run (boot fails wanted) es0).conts = []) (hr : (run (boot fails wanted) es0).st.level = .running)
    (hf : (run (boot fails wanted) es0).st.fails = []) (he : ∀ e ∈ es, e.ofGroup) :
    (run (run (boot fails wanted) es0) es).st.level = .running
    ∧ ((run (run (boot fails wanted) es0) es).conts = [] → ((run (run (boot fails wanted) es0) es).st.groups.map (·.conf)).Perm ((run (boot fails wanted) es0).st.groups.map (·.conf))) := by
  generalize run (boot fails wanted) es0 = c at *
  have h0 : GoodM (Whole (c.st.groups.map (·.conf))) Act.starts (fun _ => True) c := by
    refine ⟨⟨?_, hr, hf⟩, ?_, ?_⟩
    · rw [hc]
      simp [pend, adds]
    · rw [hc]; intro g hg; cases hg
    · rw [hc]; intro g hg; cases hg
  have : ∀ (es : List Ev) (d : Mgr), (∀ e ∈ es, e.ofGroup) → GoodM (Whole (c.st.groups.map (·.conf))) Act.starts (fun _ => True) d →
      GoodM (Whole (c.st.groups.map (·.conf))) Act.starts (fun _ => True) (run d es) := by
    intro es
    induction es with
    | nil => intro d _ h; exact h
    | cons e es ih => intro d he h; exact ih _ (fun x hx => he x (List.mem_cons_of_mem _ hx)) (step_whole e (he e (List.mem_cons_self ..)) h)
  have h := this es c he h0
  refine ⟨h.holds.2.1, fun hc2 => ?_⟩
  have h2 := h.holds.1
  rw [hc2] at h2
  simpa [pend, adds] using h2

end Casual.GConf
