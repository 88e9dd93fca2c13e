import Verif.GConf.Ended
/-
  A group is the program for its kind of connections, if that never changes for an alias.
-/
namespace Casual.GConf
open Casual.Task

/-! ### Specification -/

/-- The kind of connections is that of its alias. -/
def Conf.fits (kind : Side → Nat → Bool) (c : Conf) : Prop := c.reversed = kind c.side c.alias

/-- All that is posted is so. -/
def posts (kind : Side → Nat → Bool) (es : List Ev) : Prop := ∀ k w, .update k w ∈ es → ∀ c ∈ w, c.fits kind

/-! ### Proof -/

variable {kind : Side → Nat → Bool}

/-- All groups are the right program. -/
def Progs (kind : Side → Nat → Bool) (st : State) (_ : List Act) : Prop := ∀ g ∈ st.groups, g.conf.fits kind ∧ g.exe = g.conf.reversed

/-- The action is about such. -/
def Act.kinds (kind : Side → Nat → Bool) : Act → Prop
  | .added _ cs => ∀ c ∈ cs, c.fits kind
  | .modified s cs => ∀ c ∈ cs, c.fits kind ∧ c.side = s
  | _ => True

theorem spawns_exe : ∀ (cs : List Conf) (st : State), ∀ g ∈ (spawns cs st).2, g.exe = g.conf.reversed := by
  intro cs
  induction cs with
  | nil => intro st g hg; cases hg
  | cons c cs ih =>
    intro st g hg
    unfold spawns at hg
    dsimp only at hg
    rcases List.mem_append.1 hg with hg | hg
    · obtain ⟨_, _, rfl⟩ := List.mem_map.1 hg
      rfl
    · exact ih _ g hg

theorem modifyAll_progs (s : Side) (W : List Act) : ∀ (cs : List Conf) (st : State), (∀ c ∈ cs, c.fits kind ∧ c.side = s) → Progs kind st W → Progs kind (modifyAll s cs st).1 W := by
  intro cs
  induction cs with
  | nil => intro st _ h; exact h
  | cons c cs ih =>
    intro st hc h
    have hcs : ∀ c ∈ cs, c.fits kind ∧ c.side = s := fun d hd => hc d (List.mem_cons_of_mem _ hd)
    obtain ⟨c1, c2⟩ := hc c (List.mem_cons_self ..)
    unfold modifyAll
    split
    · exact ih st hcs h
    · dsimp only
      refine ih _ hcs ?_
      intro g hg
      rcases changeFirst_mem hg with hg | ⟨x, hx, hq, rfl⟩
      · exact h g hg
      · obtain ⟨h1, h2⟩ := h x hx
        refine ⟨c1, ?_⟩
        show x.exe = c.reversed
        unfold Group.named at hq
        rw [Bool.and_eq_true, beq_iff_eq, beq_iff_eq] at hq
        rw [h2, h1, c1, c2, hq.1, hq.2]

theorem progs_kept : Kept (Progs kind) (Act.kinds kind) (fun _ => True) := by
  refine ⟨fun a b st W ha _ h => ⟨?_, trivial⟩, fun b m f st W _ e hj => ⟨by rw [handle_state e]; exact hj, trivial⟩⟩
  cases a with
  | added s cs =>
    show Progs kind (added s cs b st).1 W
    rw [added_state]
    intro g hg
    dsimp only at hg
    rcases List.mem_append.1 hg with hg | hg
    · rw [(spawns_spec cs st).1] at hg
      exact h g hg
    · exact ⟨ha _ ((spawns_spec cs st).2.2.2.2.2 g hg).2.2.2, spawns_exe cs st g hg⟩
  | modified s cs =>
    have := modifyAll_progs s W cs st ha h
    show Progs kind (modified s cs b st).1 _
    unfold modified
    split <;> rename_i e <;> rw [e] at this <;> exact this
  | removed s cs =>
    show Progs kind (removed s cs b st).1 W
    unfold removed
    split <;> exact h
  | reply k => exact h
  | booted => exact h

/-- All groups are the right program, and will be. -/
abbrev ProgM (kind : Side → Nat → Bool) (c : Mgr) : Prop := GoodM (Progs kind) (Act.kinds kind) (fun _ => True) c

theorem push_prog {c : Mgr} {a : Act} (ha : a.kinds kind) (h : ProgM kind c) : ProgM kind (c.push [(a, .none)]) := by
  refine push_good progs_kept h.holds h.units h.front fun x hx => ?_
  rw [List.mem_singleton.1 hx]
  exact ⟨ha, trivial⟩

theorem task_prog {c : Mgr} {mk : List Conf → Act} {cs : List Conf} (ha : (mk cs).kinds kind) (h : ProgM kind c) : ProgM kind (c.task mk cs) := by
  unfold Mgr.task
  split
  · exact h
  · exact push_prog ha h

theorem conform_prog {c : Mgr} {wanted : List Conf} (hw : ∀ d ∈ wanted, d.fits kind) (h : ProgM kind c) : ProgM kind (conform c wanted) := by
  unfold conform
  dsimp only
  split
  · exact h
  · have hs : ∀ s, ∀ d ∈ side s wanted, d.fits kind ∧ d.side = s := fun s d hd => ⟨hw d (mem_side.1 hd).1, (mem_side.1 hd).2⟩
    refine task_prog (by exact trivial) (task_prog (by exact trivial) (task_prog ?_ (task_prog ?_ (task_prog ?_ (task_prog ?_ h)))))
    · exact fun d hd => hs _ d (calc_modified.1 hd).1
    · exact fun d hd => hs _ d (calc_modified.1 hd).1
    · exact fun d hd => (hs _ d (calc_added.1 hd).1).1
    · exact fun d hd => (hs _ d (calc_added.1 hd).1).1

theorem step_prog {c : Mgr} (e : Ev) (he : ∀ k w, e = .update k w → ∀ d ∈ w, d.fits kind) (h : ProgM kind c) : ProgM kind (step c e) := by
  unfold step
  split
  · exact h
  · cases e with
    | exit pid =>
      show ProgM kind (onExit c pid)
      unfold onExit
      dsimp only
      refine msg_good progs_kept _ ?_
      split
      · exact h
      · rename_i g e
        have h1 : ProgM kind (c.on fun st => { st with groups := st.groups.eraseP (Group.isProc pid) }) := on_good h fun _ hj x hx => hj x (List.eraseP_sublist.subset hx)
        split
        · refine push_prog ?_ h1
          intro d hd
          rw [List.mem_singleton.1 hd]
          exact (h.holds g (List.mem_of_find?_eq_some e)).1
        · exact h1
    | connect s pid =>
      refine on_good h fun _ hj g hg => ?_
      rcases changeFirst_mem hg with hg | ⟨x, hx, _, rfl⟩
      · exact hj g hg
      · exact hj x hx
    | reply s pid => exact msg_good progs_kept _ h
    | update k w => exact push_prog (by exact trivial) (conform_prog (he k w rfl) (on_good h fun _ hj => hj))
    | shutdown => exact conform_prog (by intro d hd; cases hd) (on_good h fun _ hj => hj)

theorem run_prog : ∀ (es : List Ev) (c : Mgr), posts kind es → ProgM kind c → ProgM kind (run c es) := by
  intro es
  induction es with
  | nil => intro c _ h; exact h
  | cons e es ih =>
    intro c hp h
    exact ih (step c e) (fun k w hm => hp k w (List.mem_cons_of_mem _ hm)) (step_prog e (fun k w he => hp k w (he ▸ List.mem_cons_self ..)) h)

/-- If the kind of connections never changes for an alias on a side, in what is configured at boot and in all updates: all groups are, at all times, the program for the kind of connections that is configured. -/
theorem program_partial (kind : Side → Nat → Bool) (fails : List Bool) (wanted : List Conf) (es : List Ev) (hw : ∀ c ∈ wanted, c.fits kind) (hp : posts kind es) :
    ∀ g ∈ (run (boot fails wanted) es).st.groups, g.exe = g.conf.reversed := by
  have h0 : ProgM kind (boot fails wanted) := by
    unfold boot
    refine push_prog (by exact trivial) (conform_prog hw ⟨?_, ?_, ?_⟩)
    · intro g hg; cases hg
    · intro g hg; cases hg
    · intro g hg; cases hg
  exact fun g hg => ((run_prog es _ hp h0).holds g hg).2

end Casual.GConf
