import Verif.TM.Props4
/-!
# An answer that waits is sent at the next idle moment, before all answers that are decided after that
-/
namespace Casual.TM
open Casual.Code Casual.FanOut

theorem step_grows (s : State) (hJ : J s) (e : Event) : ∃ l, (step s e).tr = s.tr ++ l := by
  by_cases he : e = .crash
  · subst he
    exact ⟨[.ev .crash], rfl⟩
  · by_cases hh : s.halted
    · refine ⟨[], ?_⟩
      rw [List.append_nil]
      cases e with
      | crash => exact absurd rfl he
      | _ => simp only [step, hh, if_true]
    · obtain ⟨l, h⟩ := step_tr s hJ e he hh
      exact ⟨_, h⟩

theorem run_grows : ∀ (es : List Event) (s : State), J s → ∃ l, (run s es).tr = s.tr ++ l := by
  intro es
  induction es with
  | nil => intro s _; exact ⟨[], by simp [run]⟩
  | cons e es ih =>
    intro s hJ
    obtain ⟨l, h⟩ := step_grows s hJ e
    obtain ⟨l', h'⟩ := ih (step s e) (run_ok hJ [e]).1
    exact ⟨l ++ l', by rw [← List.append_assoc, ← h]; exact h'⟩

/-- What has been observed is not changed by what happens after that. -/
theorem trace_grows (self : Proc) (es es' : List Event) : ∃ l, trace self (es ++ es') = trace self es ++ l := by
  obtain ⟨l, h⟩ := run_grows es' (run (init self) es) (reach_J self es)
  refine ⟨l, ?_⟩
  unfold trace
  rw [← h]
  unfold run
  rw [List.foldl_append]

/-- An answer that waits to be collected with others is sent at the next idle moment, and nothing waits after that. -/
theorem idle_sends (self : Proc) (es : List Event) (hh : (run (init self) es).halted = false) :
    (run (init self) (es ++ [.idle])).replies = [] ∧ ∀ to b, (to, b) ∈ (run (init self) es).replies → Obs.answer to b ∈ trace self (es ++ [.idle]) := by
  have hs : run (init self) (es ++ [.idle]) = step (run (init self) es) .idle := by
    unfold run
    rw [List.foldl_append]
    rfl
  unfold trace
  rw [hs]
  generalize run (init self) es = s at *
  have e : step s .idle = if (s.emit (.ev .idle)).replies = [] then s.emit (.ev .idle) else (s.emit (.ev .idle)).persist := by
    simp only [step, hh, Bool.false_eq_true, if_false, handle]
  rw [e]
  split
  · rename_i h
    have h : s.replies = [] := h
    exact ⟨h, fun to b hb => by rw [h] at hb; cases hb⟩
  · refine ⟨rfl, fun to b hb => ?_⟩
    show _ ∈ (s.emit (.ev .idle)).tr ++ (.persisted :: s.replies.map fun p => .answer p.1 p.2)
    exact List.mem_append_right _ (List.mem_cons_of_mem _ (List.mem_map.2 ⟨(to, b), hb, rfl⟩))

/-- An application gets the prepared answer first, if there is an idle moment when it waits: what has not been sent by then comes after it. -/
theorem prepared_before_final_partial (self : Proc) (es es' : List Event) (hh : (run (init self) es).halted = false) (to : Proc) (a b : Answer) (hb : (to, b) ∈ (run (init self) es).replies)
    (h1 : Obs.answer to a ∉ trace self (es ++ [.idle])) (h2 : Obs.answer to a ∈ trace self (es ++ .idle :: es')) :
    ∃ pre mid post, trace self (es ++ .idle :: es') = pre ++ Obs.answer to b :: (mid ++ Obs.answer to a :: post) := by
  obtain ⟨l, e⟩ := trace_grows self (es ++ [.idle]) es'
  rw [List.append_assoc] at e
  change trace self (es ++ .idle :: es') = _ at e
  rw [e] at h2 ⊢
  have hl : Obs.answer to a ∈ l := (List.mem_append.1 h2).resolve_left h1
  obtain ⟨pre, mid, e1⟩ := List.append_of_mem ((idle_sends self es hh).2 to b hb)
  obtain ⟨mid', post, e2⟩ := List.append_of_mem hl
  exact ⟨pre, mid ++ mid', post, by rw [e1, e2]; simp⟩

/-- A case: the resources answer, the application gets prepared when the manager is idle, and committed after that. -/
example : let es := (Sample.quick.dropLast).dropLast.dropLast
    let es' := Sample.quick.drop (es.length)
    (run (init Sample.me) es).halted = false ∧ (Sample.app, (⟨.commit, 7, 9, 0, .tx .ok, some .prepare⟩ : Answer)) ∈ (run (init Sample.me) es).replies
    ∧ Obs.answer Sample.app ⟨.commit, 7, 9, 0, .tx .ok, some .commit⟩ ∉ trace Sample.me (es ++ [.idle])
    ∧ Obs.answer Sample.app ⟨.commit, 7, 9, 0, .tx .ok, some .commit⟩ ∈ trace Sample.me (es ++ .idle :: es') := by decide +kernel

end Casual.TM
