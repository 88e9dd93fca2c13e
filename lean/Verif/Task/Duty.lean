import Verif.Task.Rel

/-! Something that a unit of the coordinator has to see to: as long as it is not met, a
unit that is not started (`Dw`), or one that is and has not ended (`Dr`), has the duty. -/
namespace Casual.Task

variable {S M A B : Type}

/-- `Dw s u`: the unit `u`, not started, has the duty in the state `s`; `Dr s u`: the unit,
that is started, has it; `Met s`: it is met.  `R` is what actions and handlers may do to
the state, `m` the message that is dispatched. -/
structure DutyOf (ops : Ops S M A B) (R : S → S → Prop) (Dw Dr : S → TUnit A B → Prop) (Met : S → Prop) : Prop where
  keeps : Keeps ops R
  met : ∀ {s s'}, R s s' → Met s → Met s'
  frameW : ∀ {s s' u}, R s s' → Dw s u → Dw s' u ∨ Met s'
  frameR : ∀ {s s' u}, R s s' → Dr s u → Dr s' u ∨ Met s'
  start : ∀ {s u}, Dw s u → (unitStart ops u s).2.2 = .success → Dr (unitStart ops u s).1 (unitStart ops u s).2.1 ∨ Met (unitStart ops u s).1
  startAbort : ∀ {s u}, Dw s u → (unitStart ops u s).2.2 = .abort → Met (unitStart ops u s).1

/-- What the message does to a unit with the duty. -/
structure DutyMsg (ops : Ops S M A B) (R : S → S → Prop) (Dw Dr : S → TUnit A B → Prop) (Met : S → Prop) (m : M) (K : S → Prop) : Prop
    extends DutyOf ops R Dw Dr Met where
  keepK : ∀ {s s'}, R s s' → K s → K s'
  msg : ∀ {s u}, K s → Dr s u → (unitMsg ops m u s).2.2 = .pending → Dr (unitMsg ops m u s).1 (unitMsg ops m u s).2.1 ∨ Met (unitMsg ops m u s).1
  msgDone : ∀ {s u}, K s → Dr s u → (unitMsg ops m u s).2.2 = .done → Met (unitMsg ops m u s).1

variable {ops : Ops S M A B} {R : S → S → Prop} {Dw Dr : S → TUnit A B → Prop} {Met K : S → Prop} {m : M}

theorem Keeps.unitStart (k : Keeps ops R) (u : TUnit A B) (s : S) : R s (unitStart ops u s).1 := by
  unfold Task.unitStart
  split
  · exact k.act _ _ _
  · exact k.refl s

theorem Keeps.unitMsg (k : Keeps ops R) (m : M) (u : TUnit A B) (s : S) : R s (unitMsg ops m u s).1 := by
  unfold Task.unitMsg
  split
  · rename_i h hh; exact k.handle _ _ _ hh s
  · exact k.refl s

/-- Somebody of these has it, or it is met. -/
def Owed (D : S → TUnit A B → Prop) (Met : S → Prop) (s : S) (us : List (TUnit A B)) : Prop :=
  Met s ∨ ∃ u ∈ us, D s u

/-- The coordinator sees to it: the front group runs, the others wait. -/
def Sees (Dw Dr : S → TUnit A B → Prop) (s : S) : List (List (TUnit A B)) → Prop
  | [] => False
  | g :: rest => (∃ u ∈ g, Dr s u) ∨ ∃ u ∈ rest.flatten, Dw s u

theorem Owed.mono {D : S → TUnit A B → Prop} {s : S} {us us' : List (TUnit A B)} (h : Owed D Met s us) (hs : ∀ u ∈ us, u ∈ us') :
    Owed D Met s us' := h.imp id (fun ⟨u, hu, h⟩ => ⟨u, hs u hu, h⟩)

theorem DutyOf.owedW (d : DutyOf ops R Dw Dr Met) {s s' : S} {us : List (TUnit A B)} (hr : R s s') (h : Owed Dw Met s us) :
    Owed Dw Met s' us := by
  rcases h with h | ⟨u, hu, h⟩
  · exact Or.inl (d.met hr h)
  · exact (d.frameW hr h).elim (fun h => Or.inr ⟨u, hu, h⟩) Or.inl

theorem DutyOf.owedR (d : DutyOf ops R Dw Dr Met) {s s' : S} {us : List (TUnit A B)} (hr : R s s') (h : Owed Dr Met s us) :
    Owed Dr Met s' us := by
  rcases h with h | ⟨u, hu, h⟩
  · exact Or.inl (d.met hr h)
  · exact (d.frameR hr h).elim (fun h => Or.inr ⟨u, hu, h⟩) Or.inl

theorem DutyOf.sees (d : DutyOf ops R Dw Dr Met) {s s' : S} {cs : List (List (TUnit A B))} (hr : R s s')
    (h : Met s ∨ Sees Dw Dr s cs) : Met s' ∨ Sees Dw Dr s' cs := by
  rcases h with h | h
  · exact Or.inl (d.met hr h)
  · cases cs with
    | nil => cases h
    | cons g rest =>
      rcases h with ⟨u, hu, h⟩ | ⟨u, hu, h⟩
      · exact (d.frameR hr h).elim (fun h => Or.inr (Or.inl ⟨u, hu, h⟩)) Or.inl
      · exact (d.frameW hr h).elim (fun h => Or.inr (Or.inr ⟨u, hu, h⟩)) Or.inl

theorem DutyOf.onGroupStart (d : DutyOf ops R Dw Dr Met) : ∀ (g : List (TUnit A B)) (s : S), Owed Dw Met s g →
    Owed Dr Met (groupStart ops g s).1 (groupStart ops g s).2.1
  | [], s, h => h.imp id (fun ⟨_, hu, _⟩ => by cases hu)
  | u :: us, s, h => by
    have hr := d.keeps.unitStart u s
    have hr2 := d.keeps.groupStart us (unitStart ops u s).1
    unfold Task.groupStart
    dsimp only
    rcases h with h | ⟨v, hv, h⟩
    · split
      · exact Or.inl (d.met hr2 (d.met hr h))
      · exact Or.inl (d.met hr2 (d.met hr h))
    · rcases List.mem_cons.mp hv with rfl | hv
      · split
        · rename_i ho
          have hm : Owed Dr Met (unitStart ops v s).1 [(unitStart ops v s).2.1] := by
            rcases d.start h ho with h | h
            · exact Or.inr ⟨_, List.mem_singleton.mpr rfl, h⟩
            · exact Or.inl h
          exact (d.owedR hr2 hm).mono (fun u hu => by rw [List.mem_singleton.mp hu]; exact List.mem_cons_self)
        · rename_i ho
          exact Or.inl (d.met hr2 (d.startAbort h ho))
      · have hm : Owed Dw Met (unitStart ops u s).1 us := d.owedW hr (Or.inr ⟨v, hv, h⟩)
        have ih := d.onGroupStart us _ hm
        split
        · exact ih.mono (fun x hx => List.mem_cons_of_mem _ hx)
        · exact ih

theorem DutyMsg.onGroupMsg (d : DutyMsg ops R Dw Dr Met m K) : ∀ (g : List (TUnit A B)) (s : S), K s → Owed Dr Met s g →
    Owed Dr Met (groupMsg ops m g s).1 (groupMsg ops m g s).2.1
  | [], s, _, h => h
  | u :: us, s, hk, h => by
    have hr := d.keeps.unitMsg m u s
    have hr2 := d.keeps.groupMsg m us (unitMsg ops m u s).1
    unfold Task.groupMsg
    dsimp only
    rcases h with h | ⟨v, hv, h⟩
    · split
      · exact Or.inl (d.met hr2 (d.met hr h))
      · exact Or.inl (d.met hr2 (d.met hr h))
    · rcases List.mem_cons.mp hv with rfl | hv
      · split
        · rename_i ho
          have hm : Owed Dr Met (unitMsg ops m v s).1 [(unitMsg ops m v s).2.1] := by
            rcases d.msg hk h ho with h | h
            · exact Or.inr ⟨_, List.mem_singleton.mpr rfl, h⟩
            · exact Or.inl h
          exact (d.toDutyOf.owedR hr2 hm).mono (fun u hu => by rw [List.mem_singleton.mp hu]; exact List.mem_cons_self)
        · rename_i ho
          exact Or.inl (d.met hr2 (d.msgDone hk h ho))
      · have hm : Owed Dr Met (unitMsg ops m u s).1 us := d.toDutyOf.owedR hr (Or.inr ⟨v, hv, h⟩)
        have ih := d.onGroupMsg us _ (d.keepK hr hk) hm
        split
        · exact ih.mono (fun x hx => List.mem_cons_of_mem _ hx)
        · exact ih

/-- A message.  What was behind the group `X` stays there; and if `X` is no longer waiting
- it was started - the duty that was before it is met. -/
theorem DutyMsg.onMsg (d : DutyMsg ops R Dw Dr Met m K) (X : List (TUnit A B)) (Y : List (List (TUnit A B))) :
    ∀ (cs : List (List (TUnit A B))) (s : S), K s → Met s ∨ Sees Dw Dr s cs →
    Met (coordMsg ops m (cs ++ X :: Y) s).1 ∨
    ∃ cs', (coordMsg ops m (cs ++ X :: Y) s).2.1 = cs' ++ X :: Y ∧ Sees Dw Dr (coordMsg ops m (cs ++ X :: Y) s).1 cs'
  | [], s, _, h => by
    rcases h with h | h
    · exact Or.inl (d.met (d.keeps.coordMsg m _ s) h)
    · cases h
  | g :: rest, s, hk, h => by
    rcases h with h | h
    · exact Or.inl (d.met (d.keeps.coordMsg m _ s) h)
    · have hr := d.keeps.groupMsg m g s
      rw [List.cons_append, Task.coordMsg.eq_def]
      dsimp only
      have hown : Owed Dr Met (Task.groupMsg ops m g s).1 (Task.groupMsg ops m g s).2.1 ∨
          Owed Dw Met (Task.groupMsg ops m g s).1 rest.flatten := by
        rcases h with ⟨u, hu, h⟩ | ⟨u, hu, h⟩
        · exact Or.inl (d.onGroupMsg g s hk (Or.inr ⟨u, hu, h⟩))
        · exact Or.inr (d.toDutyOf.owedW hr (Or.inr ⟨u, hu, h⟩))
      split
      · rename_i he
        have hnil : (Task.groupMsg ops m g s).2.1 = [] := List.isEmpty_iff.mp he
        have hown' : Owed Dw Met (Task.groupMsg ops m g s).1 rest.flatten := by
          rcases hown with (h | ⟨v, hv, _⟩) | h
          · exact Or.inl h
          · rw [hnil] at hv; cases hv
          · exact h
        cases rest with
        | nil =>
          rcases hown' with hm | ⟨v, hv, _⟩
          · exact Or.inl (d.met (d.keeps.coordMsg m _ _) (d.met (d.keeps.groupStart X _) hm))
          · cases hv
        | cons n rest' =>
          have hr2 := d.keeps.groupStart n (Task.groupMsg ops m g s).1
          refine d.onMsg X Y ((Task.groupStart ops n (Task.groupMsg ops m g s).1).2.1 :: rest') _
            (d.keepK hr2 (d.keepK hr hk)) ?_
          rcases hown' with hm | ⟨v, hv, hd⟩
          · exact Or.inl (d.met hr2 hm)
          · rw [List.flatten_cons, List.mem_append] at hv
            rcases hv with hv | hv
            · rcases d.toDutyOf.onGroupStart n _ (Or.inr ⟨v, hv, hd⟩) with h | h
              · exact Or.inl h
              · exact Or.inr (Or.inl h)
            · rcases d.frameW hr2 hd with h | h
              · exact Or.inr (Or.inr ⟨v, hv, h⟩)
              · exact Or.inl h
      · rcases hown with (hm | h) | (hm | h)
        · exact Or.inl hm
        · exact Or.inr ⟨(Task.groupMsg ops m g s).2.1 :: rest, rfl, Or.inl h⟩
        · exact Or.inl hm
        · exact Or.inr ⟨(Task.groupMsg ops m g s).2.1 :: rest, rfl, Or.inr h⟩
termination_by cs => cs.length

/-- The same, without anything behind. -/
theorem DutyMsg.onMsgAll (d : DutyMsg ops R Dw Dr Met m K) :
    ∀ (cs : List (List (TUnit A B))) (s : S), K s → Met s ∨ Sees Dw Dr s cs →
    Met (coordMsg ops m cs s).1 ∨ Sees Dw Dr (coordMsg ops m cs s).1 (coordMsg ops m cs s).2.1
  | [], s, _, h => by
    rw [Task.coordMsg]
    exact h
  | g :: rest, s, hk, h => by
    rcases h with h | h
    · exact Or.inl (d.met (d.keeps.coordMsg m _ s) h)
    · have hr := d.keeps.groupMsg m g s
      rw [Task.coordMsg.eq_def]
      dsimp only
      have hown : Owed Dr Met (Task.groupMsg ops m g s).1 (Task.groupMsg ops m g s).2.1 ∨
          Owed Dw Met (Task.groupMsg ops m g s).1 rest.flatten := by
        rcases h with ⟨u, hu, h⟩ | ⟨u, hu, h⟩
        · exact Or.inl (d.onGroupMsg g s hk (Or.inr ⟨u, hu, h⟩))
        · exact Or.inr (d.toDutyOf.owedW hr (Or.inr ⟨u, hu, h⟩))
      split
      · rename_i he
        have hnil : (Task.groupMsg ops m g s).2.1 = [] := List.isEmpty_iff.mp he
        have hown' : Owed Dw Met (Task.groupMsg ops m g s).1 rest.flatten := by
          rcases hown with (h | ⟨v, hv, _⟩) | h
          · exact Or.inl h
          · rw [hnil] at hv; cases hv
          · exact h
        cases rest with
        | nil =>
          rcases hown' with hm | ⟨v, hv, _⟩
          · exact Or.inl hm
          · cases hv
        | cons n rest' =>
          have hr2 := d.keeps.groupStart n (Task.groupMsg ops m g s).1
          refine d.onMsgAll ((Task.groupStart ops n (Task.groupMsg ops m g s).1).2.1 :: rest') _
            (d.keepK hr2 (d.keepK hr hk)) ?_
          rcases hown' with hm | ⟨v, hv, hd⟩
          · exact Or.inl (d.met hr2 hm)
          · rw [List.flatten_cons, List.mem_append] at hv
            rcases hv with hv | hv
            · rcases d.toDutyOf.onGroupStart n _ (Or.inr ⟨v, hv, hd⟩) with h | h
              · exact Or.inl h
              · exact Or.inr (Or.inl h)
            · rcases d.frameW hr2 hd with h | h
              · exact Or.inr (Or.inr ⟨v, hv, h⟩)
              · exact Or.inl h
      · rcases hown with (hm | h) | (hm | h)
        · exact Or.inl hm
        · exact Or.inr (Or.inl h)
        · exact Or.inl hm
        · exact Or.inr (Or.inr h)
termination_by cs => cs.length

/-- A new group that is given to the coordinator, when there is one already, waits. -/
theorem coordThen_waits (ops : Ops S M A B) (g : List (TUnit A B)) (cs : List (List (TUnit A B))) (hc : cs ≠ []) (s : S) :
    (coordThen ops g cs s).1 = s ∧ (coordThen ops g cs s).2.1 = cs ++ [g] := by
  unfold coordThen
  cases cs with
  | nil => exact absurd rfl hc
  | cons a b => simp

/-- A new group leaves what is seen to. -/
theorem Sees.then (ops : Ops S M A B) (g : List (TUnit A B)) {cs : List (List (TUnit A B))} {s : S} (h : Sees Dw Dr s cs) :
    Sees Dw Dr (coordThen ops g cs s).1 (coordThen ops g cs s).2.1 := by
  cases cs with
  | nil => cases h
  | cons a b =>
    obtain ⟨e1, e2⟩ := coordThen_waits ops g (a :: b) (by simp) s
    rw [e1, e2]
    rcases h with h | ⟨u, hu, h⟩
    · exact Or.inl h
    · exact Or.inr ⟨u, by show u ∈ (b ++ [g]).flatten; rw [List.flatten_append, List.mem_append]; exact Or.inl hu, h⟩

/-- A new group with the duty. -/
theorem DutyOf.onThen (d : DutyOf ops R Dw Dr Met) (g : List (TUnit A B)) (cs : List (List (TUnit A B))) (s : S)
    (h : Owed Dw Met s g) : Met (coordThen ops g cs s).1 ∨ Sees Dw Dr (coordThen ops g cs s).1 (coordThen ops g cs s).2.1 := by
  cases cs with
  | cons a b =>
    obtain ⟨e1, e2⟩ := coordThen_waits ops g (a :: b) (by simp) s
    rw [e1, e2]
    rcases h with h | ⟨u, hu, h⟩
    · exact Or.inl h
    · exact Or.inr (Or.inr ⟨u, by show u ∈ (b ++ [g]).flatten; rw [List.flatten_append, List.mem_append]; exact Or.inr (by simpa using hu), h⟩)
  | nil =>
    have ih := d.onGroupStart g s h
    unfold coordThen coordStart
    dsimp only [List.nil_append, List.length_cons, List.length_nil]
    rw [if_pos rfl]
    split
    · rename_i he
      rw [List.isEmpty_iff.mp he] at ih
      rcases ih with ih | ⟨_, hu, _⟩
      · exact Or.inl ih
      · cases hu
    · rcases ih with ih | ih
      · exact Or.inl ih
      · exact Or.inr (Or.inl ih)

end Casual.Task
