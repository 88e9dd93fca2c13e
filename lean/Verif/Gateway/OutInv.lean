import Verif.Gateway.Out
import Verif.Util
/-!
Lemmas and invariants for the outbound group, about the functions of `Out.lean`.
-/
namespace Casual.Gateway.Out

/-! ### what the functions change -/

@[simp] theorem emit_tasks (o s) : (emit o s).tasks = s.tasks := rfl
@[simp] theorem emit_conns (o s) : (emit o s).conns = s.conns := rfl
@[simp] theorem emit_dest (o s) : (emit o s).dest = s.dest := rfl
@[simp] theorem emit_trans (o s) : (emit o s).trans = s.trans := rfl
@[simp] theorem emit_disc (o s) : (emit o s).disconnecting = s.disconnecting := rfl
@[simp] theorem emit_dead (o s) : (emit o s).dead = s.dead := rfl
@[simp] theorem emit_running (o s) : (emit o s).running = s.running := rfl
@[simp] theorem emit_pending (o s) : (emit o s).pending = s.pending := rfl
@[simp] theorem emit_log (o s) : (emit o s).log = o :: s.log := rfl
@[simp] theorem emit_connected (o s d) : connected d (emit o s) = connected d s := rfl

@[simp] theorem metric_tasks (c k s) : (metric c k s).tasks = s.tasks := by
  unfold metric; dsimp only; split <;> rfl
@[simp] theorem metric_conns (c k s) : (metric c k s).conns = s.conns := by
  unfold metric; dsimp only; split <;> rfl
@[simp] theorem metric_dest (c k s) : (metric c k s).dest = s.dest := by
  unfold metric; dsimp only; split <;> rfl
@[simp] theorem metric_trans (c k s) : (metric c k s).trans = s.trans := by
  unfold metric; dsimp only; split <;> rfl
@[simp] theorem metric_disc (c k s) : (metric c k s).disconnecting = s.disconnecting := by
  unfold metric; dsimp only; split <;> rfl
@[simp] theorem metric_dead (c k s) : (metric c k s).dead = s.dead := by
  unfold metric; dsimp only; split <;> rfl
@[simp] theorem metric_running (c k s) : (metric c k s).running = s.running := by
  unfold metric; dsimp only; split <;> rfl
@[simp] theorem metric_connected (c k s d) : connected d (metric c k s) = connected d s := by
  simp [connected]

theorem metric_log (c k s) : (metric c k s).log = s.log ∨ ∃ p, (metric c k s).log = .metrics p :: s.log := by
  unfold metric; dsimp only; split
  · exact Or.inr ⟨_, rfl⟩
  · exact Or.inl rfl

theorem force_fields (s) : (forceMetric s).tasks = s.tasks ∧ (forceMetric s).conns = s.conns ∧
    (forceMetric s).dest = s.dest ∧ (forceMetric s).trans = s.trans ∧
    (forceMetric s).disconnecting = s.disconnecting ∧ (forceMetric s).dead = s.dead ∧
    (forceMetric s).running = s.running := by
  unfold forceMetric; split <;> exact ⟨rfl, rfl, rfl, rfl, rfl, rfl, rfl⟩

@[simp] theorem force_tasks (s) : (forceMetric s).tasks = s.tasks := (force_fields s).1
@[simp] theorem force_conns (s) : (forceMetric s).conns = s.conns := (force_fields s).2.1
@[simp] theorem force_dest (s) : (forceMetric s).dest = s.dest := (force_fields s).2.2.1
@[simp] theorem force_trans (s) : (forceMetric s).trans = s.trans := (force_fields s).2.2.2.1
@[simp] theorem force_disc (s) : (forceMetric s).disconnecting = s.disconnecting := (force_fields s).2.2.2.2.1
@[simp] theorem force_dead (s) : (forceMetric s).dead = s.dead := (force_fields s).2.2.2.2.2.1
@[simp] theorem force_running (s) : (forceMetric s).running = s.running := (force_fields s).2.2.2.2.2.2
@[simp] theorem force_connected (s d) : connected d (forceMetric s) = connected d s := by
  simp [connected]

theorem force_log (s) : (forceMetric s).log = s.log ∨ ∃ p, (forceMetric s).log = .metrics p :: s.log := by
  unfold forceMetric; split
  · exact Or.inl rfl
  · exact Or.inr ⟨_, rfl⟩

@[simp] theorem unadv_tasks (d s) : (unadvertise d s).tasks = s.tasks := by unfold unadvertise; split <;> rfl
@[simp] theorem unadv_conns (d s) : (unadvertise d s).conns = s.conns := by unfold unadvertise; split <;> rfl
@[simp] theorem unadv_dest (d s) : (unadvertise d s).dest = s.dest := by unfold unadvertise; split <;> rfl
@[simp] theorem unadv_trans (d s) : (unadvertise d s).trans = s.trans := by unfold unadvertise; split <;> rfl
@[simp] theorem unadv_disc (d s) : (unadvertise d s).disconnecting = s.disconnecting := by unfold unadvertise; split <;> rfl
@[simp] theorem unadv_dead (d s) : (unadvertise d s).dead = s.dead := by unfold unadvertise; split <;> rfl
@[simp] theorem unadv_running (d s) : (unadvertise d s).running = s.running := by unfold unadvertise; split <;> rfl
@[simp] theorem unadv_pending (d s) : (unadvertise d s).pending = s.pending := by unfold unadvertise; split <;> rfl
@[simp] theorem unadv_connected (d s d') : connected d' (unadvertise d s) = connected d' s := by
  simp [connected]

theorem failTask_fields (t s) : (failTask t s).tasks = s.tasks ∧ (failTask t s).conns = s.conns ∧
    (failTask t s).dest = s.dest ∧ (failTask t s).trans = s.trans ∧
    (failTask t s).disconnecting = s.disconnecting ∧ (failTask t s).dead = s.dead ∧
    (failTask t s).running = s.running := by
  unfold failTask; split <;> simp

theorem foldFail_fields (ts : List Task) (s : State) :
    (ts.foldl (fun s t => failTask t s) s).tasks = s.tasks ∧
    (ts.foldl (fun s t => failTask t s) s).conns = s.conns ∧
    (ts.foldl (fun s t => failTask t s) s).dest = s.dest ∧
    (ts.foldl (fun s t => failTask t s) s).trans = s.trans ∧
    (ts.foldl (fun s t => failTask t s) s).disconnecting = s.disconnecting ∧
    (ts.foldl (fun s t => failTask t s) s).dead = s.dead ∧
    (ts.foldl (fun s t => failTask t s) s).running = s.running := by
  induction ts generalizing s with
  | nil => simp
  | cons t ts ih =>
    obtain ⟨a, b, c, d, e, f, g⟩ := failTask_fields t s
    obtain ⟨a', b', c', d', e', f', g'⟩ := ih (failTask t s)
    simp only [List.foldl_cons]
    exact ⟨a'.trans a, b'.trans b, c'.trans c, d'.trans d, e'.trans e, f'.trans f, g'.trans g⟩

@[simp] theorem ft_tasks (d s) : (failedTasks d s).tasks = s.tasks.filter (·.key ≠ d) := rfl
@[simp] theorem ft_conns (d s) : (failedTasks d s).conns = s.conns := (foldFail_fields _ s).2.1
@[simp] theorem ft_dest (d s) : (failedTasks d s).dest = s.dest := (foldFail_fields _ s).2.2.1
@[simp] theorem ft_trans (d s) : (failedTasks d s).trans = s.trans := (foldFail_fields _ s).2.2.2.1
@[simp] theorem ft_disc (d s) : (failedTasks d s).disconnecting = s.disconnecting := (foldFail_fields _ s).2.2.2.2.1
@[simp] theorem ft_dead (d s) : (failedTasks d s).dead = s.dead := (foldFail_fields _ s).2.2.2.2.2.1
@[simp] theorem ft_running (d s) : (failedTasks d s).running = s.running := (foldFail_fields _ s).2.2.2.2.2.2
@[simp] theorem ft_connected (d s d') : connected d' (failedTasks d s) = connected d' s := by
  simp [connected]

/-- The state in `lost` when the units have failed. -/
def lostMid (d : Nat) (s : State) : State :=
  failedTasks d (if connected d (unadvertise d s) then emit (.closed d) (unadvertise d s) else unadvertise d s)

theorem lost_eq (d s) : lost d s =
    if connected d s then
      { lostMid d s with
        disconnecting := s.disconnecting.filter (·.1 ≠ d)
        conns := s.conns.filter (·.d ≠ d)
        dest := s.dest.filter (·.conn ≠ d)
        trans := extractTrans d s.trans }
    else { lostMid d s with disconnecting := s.disconnecting.filter (·.1 ≠ d), dead := true } := by
  have h1 : (lostMid d s).disconnecting = s.disconnecting := by unfold lostMid; split <;> simp
  have h2 : (lostMid d s).conns = s.conns := by unfold lostMid; split <;> simp
  have h3 : (lostMid d s).dest = s.dest := by unfold lostMid; split <;> simp
  have h4 : (lostMid d s).trans = s.trans := by unfold lostMid; split <;> simp
  have h : lost d s = (let s' := { lostMid d s with disconnecting := (lostMid d s).disconnecting.filter (·.1 ≠ d) }
      if connected d s' then
        { s' with
          conns := s'.conns.filter (·.d ≠ d)
          dest := s'.dest.filter (·.conn ≠ d)
          trans := extractTrans d s'.trans }
      else { s' with dead := true }) := rfl
  rw [h]
  have hc : connected d { lostMid d s with disconnecting := (lostMid d s).disconnecting.filter (·.1 ≠ d) } = connected d s := by
    simp only [connected, h2]
  dsimp only
  rw [hc, h1, h2, h3, h4]

theorem mid_tasks (d s) : (lostMid d s).tasks = s.tasks.filter (·.key ≠ d) := by
  unfold lostMid; split <;> simp

@[simp] theorem lost_tasks (d s) : (lost d s).tasks = s.tasks.filter (·.key ≠ d) := by
  rw [lost_eq]; split <;> exact mid_tasks d s

theorem lost_log (d s) : (lost d s).log = (lostMid d s).log := by
  rw [lost_eq]; split <;> rfl

@[simp] theorem lost_disc (d s) : (lost d s).disconnecting = s.disconnecting.filter (·.1 ≠ d) := by
  rw [lost_eq]; split <;> rfl

theorem filter_of_none {A : Type} {p : A → Bool} {l : List A} (h : ∀ a ∈ l, p a = true) : l.filter p = l :=
  List.filter_eq_self.mpr h

@[simp] theorem lost_conns (d s) : (lost d s).conns = s.conns.filter (·.d ≠ d) := by
  rw [lost_eq]
  split
  · rfl
  · rename_i h
    have h2 : (lostMid d s).conns = s.conns := by unfold lostMid; split <;> simp
    show (lostMid d s).conns = _
    rw [h2, filter_of_none]
    intro a ha
    simp only [connected, List.any_eq_true, not_exists, not_and] at h
    simpa using h a ha

@[simp] theorem lost_running (d s) : (lost d s).running = s.running := by
  rw [lost_eq]
  have : (lostMid d s).running = s.running := by unfold lostMid; split <;> simp
  split <;> exact this

theorem lost_dead (d s) : (lost d s).dead = (s.dead || !connected d s) := by
  rw [lost_eq]
  have : (lostMid d s).dead = s.dead := by unfold lostMid; split <;> simp
  split
  · rename_i h; rw [h]; simpa using this
  · rename_i h; simp only [Bool.not_eq_true] at h; rw [h]; simp

theorem lost_connected (d s d') : connected d' (lost d s) = (connected d' s && d' != d) := by
  simp only [connected, lost_conns]
  rw [Bool.eq_iff_iff]
  simp only [List.any_eq_true, List.mem_filter, Bool.and_eq_true, bne_iff_ne, beq_iff_eq,
    decide_eq_true_eq]
  constructor
  · rintro ⟨x, ⟨hx, hne⟩, rfl⟩; exact ⟨⟨x, hx, rfl⟩, hne⟩
  · rintro ⟨⟨x, hx, rfl⟩, hne⟩; exact ⟨x, ⟨hx, hne⟩, rfl⟩

theorem involve_fields (g d s) : (involve g d s).tasks = s.tasks ∧ (involve g d s).conns = s.conns ∧
    (involve g d s).dest = s.dest ∧ (involve g d s).disconnecting = s.disconnecting ∧
    (involve g d s).dead = s.dead ∧ (involve g d s).running = s.running ∧
    (involve g d s).pending = s.pending := by
  unfold involve
  split
  · simp
  · dsimp only; split
    · split <;> exact ⟨rfl, rfl, rfl, rfl, rfl, rfl, rfl⟩
    · exact ⟨rfl, rfl, rfl, rfl, rfl, rfl, rfl⟩

@[simp] theorem inv_tasks (g d s) : (involve g d s).tasks = s.tasks := (involve_fields g d s).1
@[simp] theorem inv_conns (g d s) : (involve g d s).conns = s.conns := (involve_fields g d s).2.1
@[simp] theorem inv_dest (g d s) : (involve g d s).dest = s.dest := (involve_fields g d s).2.2.1
@[simp] theorem inv_disc (g d s) : (involve g d s).disconnecting = s.disconnecting := (involve_fields g d s).2.2.2.1
@[simp] theorem inv_dead (g d s) : (involve g d s).dead = s.dead := (involve_fields g d s).2.2.2.2.1
@[simp] theorem inv_running (g d s) : (involve g d s).running = s.running := (involve_fields g d s).2.2.2.2.2.1
@[simp] theorem inv_pending (g d s) : (involve g d s).pending = s.pending := (involve_fields g d s).2.2.2.2.2.2
@[simp] theorem inv_connected (g d s d') : connected d' (involve g d s) = connected d' s := by
  simp [connected]

@[simp] theorem add_tasks (t s) : (addTask t s).tasks = s.tasks ++ [t] := rfl
@[simp] theorem add_conns (t s) : (addTask t s).conns = s.conns := rfl
@[simp] theorem add_log (t s) : (addTask t s).log = s.log := rfl
@[simp] theorem add_dead (t s) : (addTask t s).dead = s.dead := rfl
@[simp] theorem add_dest (t s) : (addTask t s).dest = s.dest := rfl
@[simp] theorem add_trans (t s) : (addTask t s).trans = s.trans := rfl
@[simp] theorem add_disc (t s) : (addTask t s).disconnecting = s.disconnecting := rfl
@[simp] theorem add_running (t s) : (addTask t s).running = s.running := rfl
@[simp] theorem add_connected (t s d) : connected d (addTask t s) = connected d s := rfl

theorem addDest_fields (e s) : (addDest e s).tasks = s.tasks ∧ (addDest e s).conns = s.conns ∧
    (addDest e s).log = s.log ∧ (addDest e s).trans = s.trans ∧
    (addDest e s).disconnecting = s.disconnecting ∧
    (addDest e s).dead = s.dead ∧ (addDest e s).running = s.running := by
  unfold addDest; split <;> exact ⟨rfl, rfl, rfl, rfl, rfl, rfl, rfl⟩

@[simp] theorem ad_tasks (e s) : (addDest e s).tasks = s.tasks := (addDest_fields e s).1
@[simp] theorem ad_conns (e s) : (addDest e s).conns = s.conns := (addDest_fields e s).2.1
@[simp] theorem ad_log (e s) : (addDest e s).log = s.log := (addDest_fields e s).2.2.1
@[simp] theorem ad_trans (e s) : (addDest e s).trans = s.trans := (addDest_fields e s).2.2.2.1
@[simp] theorem ad_disc (e s) : (addDest e s).disconnecting = s.disconnecting := (addDest_fields e s).2.2.2.2.1
@[simp] theorem ad_dead (e s) : (addDest e s).dead = s.dead := (addDest_fields e s).2.2.2.2.2.1
@[simp] theorem ad_running (e s) : (addDest e s).running = s.running := (addDest_fields e s).2.2.2.2.2.2
@[simp] theorem ad_connected (e s d) : connected d (addDest e s) = connected d s := by simp [connected]

/-! ### a general way to prove invariants

`P` is kept by everything that a step is made of. The parameters say what the invariant allows. -/

theorem inv_run {P : State → Prop} (h0 : P {}) (hs : ∀ s e, P s → P (step s e)) (es : List Event) : P (run es) := by
  unfold run
  induction es using Casual.snocInd with
  | nil => exact h0
  | snoc es e ih => rw [List.foldl_append]; exact hs _ _ ih

theorem run_snoc (es : List Event) (e : Event) : run (es ++ [e]) = step (run es) e := by
  simp [run, List.foldl_append]

/-- For histories all of whose events are allowed by `A`. -/
theorem inv_run_of {P : State → Prop} {A : Event → Prop} (h0 : P {})
    (hs : ∀ s e, A e → P s → P (step s e)) (es : List Event) (ha : ∀ e ∈ es, A e) : P (run es) := by
  induction es using Casual.snocInd with
  | nil => exact h0
  | snoc es e ih =>
    rw [run_snoc]
    exact hs _ _ (ha e (by simp)) (ih fun x hx => ha x (by simp [hx]))

end Casual.Gateway.Out
