import Verif.Gateway.In
/-! The parts of the inbound group: what each of them changes. -/
namespace Casual.Gateway.In

@[simp] theorem emit_tasks (o s) : (emit o s).tasks = s.tasks := rfl
@[simp] theorem emit_conns (o s) : (emit o s).conns = s.conns := rfl
@[simp] theorem emit_cache (o s) : (emit o s).cache = s.cache := rfl
@[simp] theorem emit_pending (o s) : (emit o s).pending = s.pending := rfl
@[simp] theorem emit_inbox (o s) : (emit o s).inbox = s.inbox := rfl
@[simp] theorem emit_dead (o s) : (emit o s).dead = s.dead := rfl
@[simp] theorem emit_running (o s) : (emit o s).running = s.running := rfl
@[simp] theorem emit_log (o s) : (emit o s).log = o :: s.log := rfl
@[simp] theorem emit_connected (o s d) : connected d (emit o s) = connected d s := rfl

@[simp] theorem add_tasks (t s) : (addTask t s).tasks = s.tasks ++ [t] := rfl
@[simp] theorem add_conns (t s) : (addTask t s).conns = s.conns := rfl
@[simp] theorem add_cache (t s) : (addTask t s).cache = s.cache := rfl
@[simp] theorem add_pending (t s) : (addTask t s).pending = s.pending := rfl
@[simp] theorem add_inbox (t s) : (addTask t s).inbox = s.inbox := rfl
@[simp] theorem add_dead (t s) : (addTask t s).dead = s.dead := rfl
@[simp] theorem add_running (t s) : (addTask t s).running = s.running := rfl
@[simp] theorem add_log (t s) : (addTask t s).log = s.log := rfl

theorem connected_congr {s t : State} (h : t.conns = s.conns) (d : Nat) : connected d t = connected d s := by
  unfold connected; rw [h]

theorem connected_iff {d : Nat} {s : State} : connected d s = true ↔ ∃ x ∈ s.conns, x.d = d := by
  simp [connected, List.any_eq_true]

theorem failTask_fields (t s) : (failTask t s).tasks = s.tasks ∧ (failTask t s).conns = s.conns ∧
    (failTask t s).cache = s.cache ∧ (failTask t s).pending = s.pending ∧ (failTask t s).inbox = s.inbox ∧
    (failTask t s).dead = s.dead ∧ (failTask t s).running = s.running := by
  unfold failTask; split <;> simp

/-- The discards when the connection is lost. -/
def discards (ts : List Task) : List Obs :=
  (ts.filter fun t => isService t.kind && t.lookup.isNone).map fun t => .discard t.corr

theorem foldFail_eq (ts : List Task) (s : State) :
    ts.foldl (fun s t => failTask t s) s = { s with log := (discards ts).reverse ++ s.log } := by
  induction ts generalizing s with
  | nil => rfl
  | cons t ts ih =>
    rw [List.foldl_cons, ih]
    unfold failTask discards
    cases h : (isService t.kind && t.lookup.isNone) <;> simp [h, emit, List.filter_cons]

theorem failedTasks_eq (d s) : failedTasks d s =
    { s with tasks := s.tasks.filter (·.key ≠ d), log := (discards (s.tasks.filter (·.key = d))).reverse ++ s.log } := by
  unfold failedTasks; rw [foldFail_eq]

theorem lost_eq {d s} (h : connected d s = true) : lost d s =
    { s with
      pending := s.pending.filter (· ≠ d)
      conns := s.conns.filter (·.d ≠ d)
      inbox := s.inbox.filter (·.d ≠ d)
      cache := failedTrids d s.cache
      tasks := s.tasks.filter (·.key ≠ d)
      log := (discards (s.tasks.filter (·.key = d))).reverse ++ .closed d :: s.log } := by
  unfold lost; rw [if_pos h, failedTasks_eq]

theorem lost_not {d s} (h : connected d s = false) : lost d s = { s with dead := true } := by
  unfold lost; rw [if_neg (by simp [h])]

theorem filter_all {A : Type} {p : A → Bool} {l : List A} (h : ∀ a ∈ l, p a = true) : l.filter p = l :=
  List.filter_eq_self.mpr h

theorem lost_connected (d s d') : connected d' (lost d s) = (connected d' s && d' != d) := by
  cases h : connected d s with
  | true =>
    rw [lost_eq h]
    rw [Bool.eq_iff_iff]
    simp only [connected, List.any_eq_true, List.mem_filter, Bool.and_eq_true]
    constructor
    · rintro ⟨x, ⟨h1, h2⟩, h3⟩
      have : x.d = d' := by simpa using h3
      subst this; exact ⟨⟨x, h1, h3⟩, by simpa using h2⟩
    · rintro ⟨⟨x, h1, h3⟩, h2⟩
      have : x.d = d' := by simpa using h3
      subst this; exact ⟨x, ⟨h1, by simpa using h2⟩, h3⟩
  | false =>
    rw [lost_not h]
    show connected d' s = _
    by_cases hd : d' = d
    · subst hd; simp [h]
    · have : (d' != d) = true := by simpa using hd
      rw [this, Bool.and_true]

theorem lost_running (d s) : (lost d s).running = s.running := by
  cases h : connected d s with
  | true => rw [lost_eq h]
  | false => rw [lost_not h]

theorem lost_dead (d s) : (lost d s).dead = (s.dead || !connected d s) := by
  cases h : connected d s with
  | true => rw [lost_eq h]; simp
  | false => rw [lost_not h]; simp

/-- `split` finds the first one. -/
theorem split_some {c : Nat} {ts pre post : List Task} {t : Task} (h : split c ts = some (pre, t, post)) :
    ts = pre ++ t :: post ∧ t.corr = c ∧ ∀ u ∈ pre, u.corr ≠ c := by
  induction ts generalizing pre with
  | nil => simp [split] at h
  | cons u us ih =>
    unfold split at h
    split at h
    · rename_i hu
      simp only [Option.some.injEq, Prod.mk.injEq] at h
      obtain ⟨rfl, rfl, rfl⟩ := h
      exact ⟨rfl, hu, by simp⟩
    · rename_i hu
      rw [Option.map_eq_some_iff] at h
      obtain ⟨⟨a, b, e⟩, h1, h2⟩ := h
      simp only [Prod.mk.injEq] at h2
      obtain ⟨rfl, rfl, rfl⟩ := h2
      obtain ⟨h3, h4, h5⟩ := ih h1
      refine ⟨by rw [h3]; rfl, h4, ?_⟩
      intro v hv
      rcases List.mem_cons.mp hv with rfl | hv
      · exact hu
      · exact h5 v hv

theorem split_none {c : Nat} {ts : List Task} (h : split c ts = none) : ∀ t ∈ ts, t.corr ≠ c := by
  induction ts with
  | nil => simp
  | cons u us ih =>
    unfold split at h
    split at h
    · cases h
    · rename_i hu
      rw [Option.map_eq_none_iff] at h
      intro t ht
      rcases List.mem_cons.mp ht with rfl | ht
      · exact hu
      · exact ih h t ht

/-- The three ways a message to a unit can end. -/
theorem dispatch_cases (c h) (s : State) :
    ((∀ t ∈ s.tasks, t.corr ≠ c) ∧ dispatch c h s = s) ∨
    ∃ pre t post, s.tasks = pre ++ t :: post ∧ t.corr = c ∧ (∀ u ∈ pre, u.corr ≠ c) ∧
      ((∃ s' t', h t s = (s', some t') ∧ dispatch c h s = { s' with tasks := pre ++ t' :: post }) ∨
       (∃ s', h t s = (s', none) ∧ pre.length < s'.tasks.length ∧
          dispatch c h s = { s' with tasks := s'.tasks.eraseIdx pre.length }) ∨
       (∃ s', h t s = (s', none) ∧ s'.tasks.length ≤ pre.length ∧ dispatch c h s = { s' with dead := true })) := by
  cases hsp : split c s.tasks with
  | none => left; exact ⟨split_none hsp, by unfold dispatch; rw [hsp]⟩
  | some r =>
    obtain ⟨pre, t, post⟩ := r
    right
    obtain ⟨h1, h2, h3⟩ := split_some hsp
    refine ⟨pre, t, post, h1, h2, h3, ?_⟩
    have e : dispatch c h s = (match h t s with
      | (s', some t') => { s' with tasks := pre ++ t' :: post }
      | (s', none) =>
        if pre.length < s'.tasks.length then { s' with tasks := s'.tasks.eraseIdx pre.length }
        else { s' with dead := true }) := by unfold dispatch; rw [hsp]; rfl
    rcases hh : h t s with ⟨s', _ | t'⟩
    · rw [hh] at e
      by_cases hl : pre.length < s'.tasks.length
      · right; left; exact ⟨s', rfl, hl, by rw [e]; exact if_pos hl⟩
      · right; right; exact ⟨s', rfl, by omega, by rw [e]; exact if_neg hl⟩
    · rw [hh] at e
      left; exact ⟨s', t', rfl, e⟩

/-- All that a message to a unit may do. -/
theorem dispatch_ind {P : State → Prop} {c h} {s : State} (hs : P s)
    (hsome : ∀ pre t post s' t', s.tasks = pre ++ t :: post → t.corr = c → h t s = (s', some t') →
      P { s' with tasks := pre ++ t' :: post })
    (hnone : ∀ pre t post s', s.tasks = pre ++ t :: post → t.corr = c → h t s = (s', none) →
      pre.length < s'.tasks.length → P { s' with tasks := s'.tasks.eraseIdx pre.length })
    (hdead : ∀ pre t post s', s.tasks = pre ++ t :: post → t.corr = c → h t s = (s', none) →
      s'.tasks.length ≤ pre.length → P { s' with dead := true }) : P (dispatch c h s) := by
  rcases dispatch_cases c h s with ⟨_, e⟩ | ⟨pre, t, post, h1, h2, _, h4⟩
  · rw [e]; exact hs
  · rcases h4 with ⟨s', t', h5, e⟩ | ⟨s', h5, h6, e⟩ | ⟨s', h5, h6, e⟩
    · rw [e]; exact hsome pre t post s' t' h1 h2 h5
    · rw [e]; exact hnone pre t post s' h1 h2 h5 h6
    · rw [e]; exact hdead pre t post s' h1 h2 h5 h6

theorem on_ind {P : State → Prop} {d f s} (hs : P s) (hf : connected d s = true → P (f s)) : P (on d f s) := by
  unfold on; split
  · rename_i h; exact hf h
  · exact hs

theorem inv_run {P : State → Prop} (h0 : P {}) (hs : ∀ s e, s.dead = false → P s → P (apply e s)) (es : List Event) : P (run es) := by
  have : ∀ s, P s → P (es.foldl step s) := by
    induction es with
    | nil => intro s h; exact h
    | cons e es ih =>
      intro s h
      refine ih _ ?_
      unfold step
      cases hd : s.dead with
      | true => simpa using h
      | false => simpa using hs s e hd h
  exact this {} h0

theorem run_snoc (es : List Event) (e : Event) : run (es ++ [e]) = step (run es) e := by
  unfold run; rw [List.foldl_append]; rfl

theorem run_snoc_alive {es : List Event} (e : Event) (h : (run es).dead = false) :
    run (es ++ [e]) = apply e (run es) := by
  rw [run_snoc]; unfold step; rw [if_neg (by simp [h])]

/-- What is kept for the events that are allowed. -/
theorem inv_run_of {P : State → Prop} {A : Event → Prop} (h0 : P {})
    (hs : ∀ s e, s.dead = false → A e → P s → P (apply e s)) (es : List Event) (ha : ∀ e ∈ es, A e) : P (run es) := by
  have : ∀ s, P s → P (es.foldl step s) := by
    induction es with
    | nil => intro s h; exact h
    | cons e es ih =>
      intro s h
      refine ih (fun x hx => ha x (List.mem_cons_of_mem _ hx)) _ ?_
      unfold step
      cases hd : s.dead with
      | true => simpa using h
      | false => simpa using hs s e hd (ha e (List.mem_cons_self ..)) h
  exact this {} h0

/-! ### The cache -/

theorem join_g (g d : Nat) (cs : List Assoc) : (join g d cs).map (·.g) = cs.map (·.g) := by
  unfold join; rw [List.map_map]
  refine List.map_congr_left fun a _ => ?_
  simp only [Function.comp]
  split
  · split <;> rfl
  · rfl

theorem join_mem {g d : Nat} {cs : List Assoc} {a : Assoc} (h : a ∈ join g d cs) :
    ∃ b ∈ cs, a.g = b.g ∧ a.trid = b.trid ∧ ∀ x ∈ a.ds, x ∈ b.ds ∨ (x = d ∧ b.g = g) := by
  unfold join at h
  obtain ⟨b, hb, rfl⟩ := List.mem_map.mp h
  refine ⟨b, hb, ?_⟩
  split
  · rename_i hg
    split
    · exact ⟨rfl, rfl, fun x hx => Or.inl hx⟩
    · refine ⟨rfl, rfl, fun x hx => ?_⟩
      simp only [List.mem_append, List.mem_singleton] at hx
      rcases hx with hx | hx
      · exact Or.inl hx
      · exact Or.inr ⟨hx, hg⟩
  · exact ⟨rfl, rfl, fun x hx => Or.inl hx⟩

theorem addTrid_mem {t : Trid} {d : Nat} {cs : List Assoc} {a : Assoc} (h : a ∈ addTrid t d cs) :
    (∃ b ∈ cs, a.g = b.g ∧ a.trid = b.trid ∧ ∀ x ∈ a.ds, x ∈ b.ds ∨ x = d) ∨ a = ⟨t.g, t, [d]⟩ := by
  unfold addTrid at h
  split at h
  · obtain ⟨b, h1, h2, h3, h4⟩ := join_mem h
    exact Or.inl ⟨b, h1, h2, h3, fun x hx => (h4 x hx).imp id (·.1)⟩
  · rcases List.mem_append.mp h with h | h
    · exact Or.inl ⟨a, h, rfl, rfl, fun x hx => Or.inl hx⟩
    · exact Or.inr (by simpa using h)

theorem failedTrids_mem {d : Nat} {cs : List Assoc} {a : Assoc} (h : a ∈ failedTrids d cs) :
    ∃ b ∈ cs, a.g = b.g ∧ a.trid = b.trid ∧ (∀ x ∈ a.ds, x ∈ b.ds ∧ x ≠ d) ∧ a.ds ≠ [] := by
  unfold failedTrids at h
  obtain ⟨h1, h2⟩ := List.mem_filter.mp h
  obtain ⟨b, hb, rfl⟩ := List.mem_map.mp h1
  refine ⟨b, hb, rfl, rfl, fun x hx => ?_, ?_⟩
  · simpa using hx
  · intro h; rw [h] at h2; cases h2

theorem find_some {g : Nat} {cs : List Assoc} {t : Trid} (h : find g cs = some t) : ∃ a ∈ cs, a.g = g ∧ a.trid = t := by
  unfold find at h
  rw [Option.map_eq_some_iff] at h
  obtain ⟨a, h1, rfl⟩ := h
  exact ⟨a, List.mem_of_find?_eq_some h1, by simpa using List.find?_some h1, rfl⟩

theorem find_none {g : Nat} {cs : List Assoc} (h : find g cs = none) : ∀ a ∈ cs, a.g ≠ g := by
  unfold find at h
  rw [Option.map_eq_none_iff] at h
  intro a ha
  have := List.find?_eq_none.mp h a ha
  simpa using this

end Casual.Gateway.In
