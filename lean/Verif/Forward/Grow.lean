import Verif.Forward.Props
/-! What has been heard and said stays so. -/
namespace Casual.Forward

/-- The log grows, and of what is new, only `P` is heard. -/
def Grow (P : Obs → Prop) (s s' : State) : Prop := ∃ a, s'.log = a ++ s.log ∧ ∀ o ∈ a, heard o ≠ none → P o

theorem Grow.refl {P : Obs → Prop} {s s' : State} (h : s'.log = s.log) : Grow P s s' := ⟨[], h, by intro o ho; cases ho⟩

theorem Grow.trans {P : Obs → Prop} {s s' s'' : State} (h : Grow P s s') (h' : Grow P s' s'') : Grow P s s'' := by
  obtain ⟨a, ha, h1⟩ := h
  obtain ⟨b, hb, h2⟩ := h'
  refine ⟨b ++ a, by rw [hb, ha, List.append_assoc], ?_⟩
  intro o ho
  rcases List.mem_append.mp ho with ho | ho
  · exact h2 o ho
  · exact h1 o ho

theorem Quiet.grow {P : Obs → Prop} {s s' : State} (h : Quiet s s') : Grow P s s' := by
  obtain ⟨a, ha, h1⟩ := h
  refine ⟨a, ha, ?_⟩
  intro o ho hne
  have := h1 o ho
  simp only [calm, Bool.and_eq_true, Option.isNone_iff_eq_none] at this
  exact absurd this.2 hne

theorem grow_emit {P : Obs → Prop} {s s' : State} {o : Obs} (h : s'.log = o :: s.log) (ho : heard o ≠ none → P o) : Grow P s s' :=
  ⟨[o], h, by intro o' h'; rw [List.mem_singleton.mp h']; exact ho⟩

theorem grow_startN {P : Obs → Prop} (f : Fwd) (n : Nat) : ∀ s, Grow P s (startN f n s) := by
  induction n with
  | zero => intro s; exact .refl rfl
  | succ n ih =>
    intro s
    refine Grow.trans ?_ (ih _)
    exact grow_emit (o := .dequeue f.id s.fresh ⟨s.fresh⟩ f.source.process f.source.id) rfl (fun h => absurd rfl h)

theorem grow_start {P : Obs → Prop} (f : Fwd) (s : State) : Grow P s (start f s) := by
  unfold start; split
  · exact grow_startN ..
  · exact .refl rfl

theorem grow_next {P : Obs → Prop} (i : Nat) (s : State) : Grow P s (next i s) := by
  unfold next
  split
  · exact .refl rfl
  · split
    · exact grow_start ..
    · split
      · exact .refl rfl
      · exact (quiet_askQueues ..).grow

/-- What is heard with the event. -/
def hears (s : State) : Event → Obs → Prop
  | .got c m, o => o = .got c m
  | .forgetRequest c, o => o = .forgetRequest c
  | .forgotten c d, o => o = .forgotten c d
  | .found c p, o => o = .found c p
  | .dropped c, o => o = .dropped c
  | .replied c ok m, o => o = .replied c ok m
  | .acked c ok, o => o = .acked c ok
  | .own i, o => ∃ c, s.own[i]? = some c ∧ o = .acked c false
  | .rolledBack c ok, o => o = .rolledBack c ok
  | .committed c e, o => o = .committed c e
  | .undelivered c, o => o = .undelivered c
  | _, _ => False

theorem grow_apply (e : Event) (s : State) : Grow (hears s e) s (apply e s) := by
  cases e with
  | update xs pref => exact (quiet_update ..).grow
  | shutdown pref => exact (grow_emit (s' := emit .shutdown s) rfl (fun h => absurd rfl h)).trans (quiet_shutdown ..).grow
  | exited p => exact (grow_emit (s' := emit (.exited p) s) rfl (fun h => absurd rfl h)).trans (quiet_exited ..).grow
  | queueAt c n q p r =>
    refine (grow_emit (s' := emit (.queueAt c n q p r) s) rfl (fun h => absurd rfl h)).trans ?_
    show Grow _ _ (queueAt c n q p r _)
    unfold queueAt
    split
    · exact .refl rfl
    · dsimp only
      split
      · exact .refl rfl
      · split
        · exact .refl rfl
        · split
          · exact Grow.trans (.refl rfl) (grow_start ..)
          · exact .refl rfl
  | queueDropped c r =>
    refine (grow_emit (s' := emit (.queueDropped c r) s) rfl (fun h => absurd rfl h)).trans ?_
    show Grow _ _ (queueDropped c r _)
    unfold queueDropped
    split <;> exact .refl rfl
  | got c m => exact (grow_emit (P := hears s (.got c m)) (s' := emit (.got c m) s) rfl (fun _ => rfl)).trans (quiet_got ..).grow
  | forgetRequest c => exact (grow_emit (P := hears s (.forgetRequest c)) (s' := emit (.forgetRequest c) s) rfl (fun _ => rfl)).trans (quiet_forgetRequest ..).grow
  | forgotten c d =>
    refine (grow_emit (P := hears s (.forgotten c d)) (s' := emit (.forgotten c d) s) rfl (fun _ => rfl)).trans ?_
    show Grow _ _ (forgotten c d _)
    unfold forgotten
    split
    · split
      · exact .refl rfl
      · next x s' ht => exact (Grow.refl (take_log ht)).trans ((quiet_finish ..).grow.trans (grow_next ..))
    · exact .refl rfl
  | found c p => exact (grow_emit (P := hears s (.found c p)) (s' := emit (.found c p) s) rfl (fun _ => rfl)).trans (quiet_found ..).grow
  | dropped c => exact (grow_emit (P := hears s (.dropped c)) (s' := emit (.dropped c) s) rfl (fun _ => rfl)).trans (quiet_dropped ..).grow
  | replied c ok m => exact (grow_emit (P := hears s (.replied c ok m)) (s' := emit (.replied c ok m) s) rfl (fun _ => rfl)).trans (quiet_replied ..).grow
  | acked c ok => exact (grow_emit (P := hears s (.acked c ok)) (s' := emit (.acked c ok) s) rfl (fun _ => rfl)).trans (quiet_acked ..).grow
  | own i =>
    simp only [apply]
    cases hi : s.own[i]? with
    | none => exact .refl rfl
    | some c =>
      refine (grow_emit (s' := emit (.acked c false) { s with own := s.own.eraseIdx i }) rfl (fun _ => ?_)).trans (quiet_acked ..).grow
      exact ⟨c, hi, rfl⟩
  | rolledBack c ok =>
    refine (grow_emit (P := hears s (.rolledBack c ok)) (s' := emit (.rolledBack c ok) s) rfl (fun _ => rfl)).trans ?_
    show Grow _ _ (rolledBack c _)
    unfold rolledBack
    split
    · exact .refl rfl
    · next x s' ht => exact (Grow.refl (take_log ht)).trans ((quiet_finish ..).grow.trans (grow_next ..))
  | committed c e =>
    refine (grow_emit (P := hears s (.committed c e)) (s' := emit (.committed c e) s) rfl (fun _ => rfl)).trans ?_
    show Grow _ _ (committed c e _)
    unfold committed
    split
    · exact .refl rfl
    · split
      · exact .refl rfl
      · next x s' ht => exact (Grow.refl (take_log ht)).trans ((quiet_finish ..).grow.trans (grow_next ..))
  | undelivered c =>
    show Grow _ s (undelivered c s)
    unfold undelivered
    split
    · next x s' ht => exact grow_emit (o := .undelivered c) (by show _ :: s'.log = _; rw [take_log ht]) (fun _ => rfl)
    · split
      · exact .refl rfl
      · next x s' ht =>
        split
        · exact .refl rfl
        · split
          · refine Grow.trans (grow_emit (s' := emit (.undelivered c) s') (by show _ :: s'.log = _; rw [take_log ht]) (fun _ => rfl)) ?_
            exact (quiet_move rfl rfl).grow
          · exact .refl rfl

theorem run_append (es es' : List Event) : run (es ++ es') = es'.foldl step (run es) := by
  simp [run, List.foldl_append]

/-- The log only grows. -/
theorem log_grows (es es' : List Event) : ∃ a, (run (es ++ es')).log = a ++ (run es).log := by
  induction es' using Casual.snocInd with
  | nil => exact ⟨[], by simp⟩
  | snoc es' e ih =>
    obtain ⟨a, ha⟩ := ih
    rw [← List.append_assoc, run_step]
    obtain ⟨b, hb, _⟩ := grow_apply e (run (es ++ es'))
    exact ⟨b ++ a, by rw [hb, ha, List.append_assoc]⟩

theorem tally_mono (k : Phase → Obs → Bool) (a b : List Obs) : tally k b ≤ tally k (a ++ b) := by
  induction a with
  | nil => exact Nat.le_refl _
  | cons o a ih => rw [List.cons_append, tally]; omega

theorem fwd_of_lt {s : State} (h : Inv s) {i : Nat} (hi : i < s.fwds.length) : ∃ f ∈ s.fwds, f.id = i := by
  have : i ∈ s.fwds.map (·.id) := by rw [h.F.ids]; exact List.mem_range.mpr hi
  obtain ⟨f, hf, e⟩ := List.mem_map.mp this
  exact ⟨f, hf, e⟩

theorem lt_of_fwd {s : State} (h : Inv s) {f : Fwd} (hf : f ∈ s.fwds) : f.id < s.fwds.length := by
  have : f.id ∈ s.fwds.map (·.id) := List.mem_map.mpr ⟨f, hf, rfl⟩
  rw [h.F.ids] at this
  exact List.mem_range.mp this

end Casual.Forward
