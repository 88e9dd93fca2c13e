import Verif.Forward.Props3
/-! C117, as far as it holds: a forward of which no enqueue has failed keeps going. -/
namespace Casual.Forward

/-- About a lookup of a queue: its correlation. -/
def lookCorr : Obs → Option Nat
  | .askQueue _ c _ | .dropQueue c | .queueAt c _ _ _ _ | .queueDropped c false => some c
  | _ => none

def lost? : Obs → Bool
  | .undelivered _ => true
  | _ => false

def neutral (o : Obs) : Bool := (lookCorr o).isNone && !lost? o

/-- The queue manager is looking for queue `n`, and has not been told to stop it. -/
def Wanted (i n : Nat) (s : State) : Prop := ∃ c, ⟨i, c⟩ ∈ s.lookups ∧ .askQueue i c n ∈ s.log ∧ .dropQueue c ∉ s.log

structure Base (s : State) : Prop where
  one : ∀ c i n i' n', .askQueue i c n ∈ s.log → .askQueue i' c n' ∈ s.log → i = i' ∧ n = n'
  ask : ∀ l ∈ s.lookups, ∃ n, .askQueue l.id l.corr n ∈ s.log
  open_ : ∀ l ∈ s.lookups, (∀ n q p r, .queueAt l.corr n q p r ∉ s.log) ∧ .queueDropped l.corr false ∉ s.log
  lt : ∀ o ∈ s.log, ∀ c, lookCorr o = some c → c < s.fresh
  lost : ∀ o ∈ s.log, lost? o = false

/-- No enqueue to the target has failed. -/
def Fine (f : Fwd) (s : State) : Prop := f.dest = none ∨ ∀ c, .acked c false ∉ s.log

def Going (f : Fwd) (s : State) : Prop :=
  (f.valid = true ∧ f.configured ≤ f.running) ∨
  ((f.source.ok = true ∨ Wanted f.id f.source.name s) ∧ (∀ d, f.dest = some d → d.ok = true ∨ Wanted f.id d.name s) ∧
    ∃ n, (n = f.source.name ∨ f.dest.map (·.name) = some n) ∧ Wanted f.id n s)

def AllGo (s : State) : Prop :=
  ∀ f ∈ s.fwds, f.enabled = true → 0 < f.configured → s.down = false → Fine f s → Going f s

def More (s s' : State) : Prop := ∃ a, s'.log = a ++ s.log ∧ ∀ o ∈ a, neutral o = true

theorem More.refl {s s' : State} (h : s'.log = s.log) : More s s' := ⟨[], h, fun o ho => by cases ho⟩

theorem More.trans {s s' s'' : State} (h : More s s') (h' : More s' s'') : More s s'' := by
  obtain ⟨a, ha, h1⟩ := h
  obtain ⟨b, hb, h2⟩ := h'
  refine ⟨b ++ a, by rw [hb, ha, List.append_assoc], ?_⟩
  intro o ho
  rcases List.mem_append.mp ho with ho | ho
  · exact h2 o ho
  · exact h1 o ho

theorem more_one {s s' : State} {o : Obs} (h : s'.log = o :: s.log) (ho : neutral o = true) : More s s' :=
  ⟨[o], h, by intro o' h'; rw [List.mem_singleton.mp h']; exact ho⟩

theorem More.mem {s s' : State} (h : More s s') {o : Obs} (ho : o ∈ s.log) : o ∈ s'.log := by
  obtain ⟨a, ha, _⟩ := h; rw [ha]; exact List.mem_append_right _ ho

theorem More.back {s s' : State} (h : More s s') {o : Obs} (ho : o ∈ s'.log) (hn : neutral o = false) : o ∈ s.log := by
  obtain ⟨a, ha, h1⟩ := h
  rw [ha] at ho
  rcases List.mem_append.mp ho with ho | ho
  · rw [h1 o ho] at hn; cases hn
  · exact ho

theorem Base.more {s s' : State} (h : Base s) (hm : More s s') (hl : s'.lookups = s.lookups) (hf : s.fresh ≤ s'.fresh) : Base s' := by
  refine ⟨?_, ?_, ?_, ?_, ?_⟩
  · intro c i n i' n' h1 h2
    exact h.one c i n i' n' (hm.back h1 rfl) (hm.back h2 rfl)
  · intro l hl'
    rw [hl] at hl'
    obtain ⟨n, hn⟩ := h.ask l hl'
    exact ⟨n, hm.mem hn⟩
  · intro l hl'
    rw [hl] at hl'
    obtain ⟨h1, h2⟩ := h.open_ l hl'
    exact ⟨fun n q p r ho => h1 n q p r (hm.back ho rfl), fun ho => h2 (hm.back ho rfl)⟩
  · intro o ho c hc
    have : neutral o = false := by unfold neutral; rw [hc]; rfl
    exact Nat.lt_of_lt_of_le (h.lt o (hm.back ho this) c hc) hf
  · intro o ho
    cases hl : lost? o
    · rfl
    · have : neutral o = false := by unfold neutral; rw [hl]; simp
      have := h.lost o (hm.back ho this)
      rw [hl] at this; exact this

theorem Wanted.more {s s' : State} {i n : Nat} (h : Wanted i n s) (hm : More s s') (hl : ∀ l ∈ s.lookups, l ∈ s'.lookups) : Wanted i n s' := by
  obtain ⟨c, h1, h2, h3⟩ := h
  exact ⟨c, hl _ h1, hm.mem h2, fun h => h3 (hm.back h rfl)⟩

theorem Fine.back {s s' : State} {f : Fwd} (h : Fine f s') (hm : ∀ o ∈ s.log, o ∈ s'.log) : Fine f s := by
  rcases h with h | h
  · exact .inl h
  · exact .inr fun c hc => h c (hm _ hc)

theorem Going.more {s s' : State} {f : Fwd} (h : Going f s) (hm : More s s') (hl : ∀ l ∈ s.lookups, l ∈ s'.lookups) : Going f s' := by
  rcases h with h | ⟨h1, h2, n, hn, h3⟩
  · exact .inl h
  · refine .inr ⟨?_, ?_, n, hn, h3.more hm hl⟩
    · rcases h1 with h1 | h1
      · exact .inl h1
      · exact .inr (h1.more hm hl)
    · intro d hd
      rcases h2 d hd with h2 | h2
      · exact .inl h2
      · exact .inr (h2.more hm hl)

/-- As it was, but with more instances on their way. -/
def Alike (f f' : Fwd) : Prop :=
  f'.id = f.id ∧ f'.source = f.source ∧ f'.dest = f.dest ∧ f'.enabled = f.enabled ∧ f'.configured = f.configured ∧ f.running ≤ f'.running

theorem Alike.refl (f : Fwd) : Alike f f := ⟨rfl, rfl, rfl, rfl, rfl, Nat.le_refl _⟩

theorem Alike.valid {f f' : Fwd} (h : Alike f f') : f'.valid = f.valid := by unfold Fwd.valid; rw [h.2.1, h.2.2.1]

theorem Going.alike {s : State} {f f' : Fwd} (h : Going f s) (ha : Alike f f') : Going f' s := by
  obtain ⟨h1, h2, h3, h4, h5, h6⟩ := ha
  unfold Going Fwd.valid at *
  rw [h1, h2, h3, h5]
  rcases h with ⟨h, h'⟩ | h
  · exact .inl ⟨h, by omega⟩
  · exact .inr h

structure Same (s s' : State) : Prop where
  more : More s s'
  looks : s'.lookups = s.lookups
  fresh : s.fresh ≤ s'.fresh
  down : s'.down = s.down
  fwds : ∀ f' ∈ s'.fwds, Fine f' s' → ∃ f ∈ s.fwds, Alike f f'

theorem Same.trans {s s' s'' : State} (h : Same s s') (h' : Same s' s'') : Same s s'' := by
  refine ⟨h.more.trans h'.more, h'.looks.trans h.looks, Nat.le_trans h.fresh h'.fresh, h'.down.trans h.down, ?_⟩
  intro f'' hf'' hF
  obtain ⟨f', hf', a⟩ := h'.fwds f'' hf'' hF
  have hF' : Fine f' s' := by
    refine Fine.back ?_ fun o ho => h'.more.mem ho
    unfold Fine at hF ⊢
    rw [← a.2.2.1]; exact hF
  obtain ⟨f, hf, b⟩ := h.fwds f' hf' hF'
  exact ⟨f, hf, a.1.trans b.1, a.2.1.trans b.2.1, a.2.2.1.trans b.2.2.1, a.2.2.2.1.trans b.2.2.2.1, a.2.2.2.2.1.trans b.2.2.2.2.1,
    Nat.le_trans b.2.2.2.2.2 a.2.2.2.2.2⟩

theorem Same.refl (s : State) : Same s s := ⟨.refl rfl, rfl, Nat.le_refl _, rfl, fun f hf _ => ⟨f, hf, .refl f⟩⟩

theorem AllGo.same {s s' : State} (h : AllGo s) (hs : Same s s') : AllGo s' := by
  intro f' hf' he hc hd hF
  obtain ⟨f, hf, a⟩ := hs.fwds f' hf' hF
  have hF' : Fine f s := by
    refine Fine.back ?_ fun o ho => hs.more.mem ho
    unfold Fine at hF ⊢
    rw [← a.2.2.1]; exact hF
  exact ((h f hf (a.2.2.2.1 ▸ he) (a.2.2.2.2.1 ▸ hc) (hs.down ▸ hd) hF').more hs.more (by rw [hs.looks]; exact fun _ => id)).alike a

theorem Base.same {s s' : State} (h : Base s) (hs : Same s s') : Base s' := h.more hs.more hs.looks hs.fresh

theorem same_log {s s' : State} {o : Obs} (h : s'.log = o :: s.log) (ho : neutral o = true) (h1 : s'.lookups = s.lookups)
    (h2 : s'.fresh = s.fresh) (h3 : s'.down = s.down) (h4 : s'.fwds = s.fwds) : Same s s' :=
  ⟨more_one h ho, h1, Nat.le_of_eq h2.symm, h3, fun f hf _ => ⟨f, h4 ▸ hf, .refl f⟩⟩

theorem same_emit {s : State} {o : Obs} (ho : neutral o = true) : Same s (emit o s) := same_log rfl ho rfl rfl rfl rfl

theorem same_take {c : Nat} {p : Stage → Bool} {s : State} {x : Flow} {s' : State} (h : take c p s = some (x, s')) : Same s s' := by
  obtain ⟨a, b, _, rfl, _⟩ := take_some h
  exact ⟨.refl rfl, rfl, Nat.le_refl _, rfl, fun f hf _ => ⟨f, hf, .refl f⟩⟩

theorem same_move {x : Flow} {g : Stage} {o : Obs} {s : State} (ho : neutral o = true) : Same s (move x g o s) :=
  same_log rfl ho rfl rfl rfl rfl

theorem same_startOne (f : Fwd) (s : State) : Same s (startOne f s) := by
  refine ⟨more_one (o := .dequeue f.id s.fresh ⟨s.fresh⟩ f.source.process f.source.id) rfl rfl, rfl, Nat.le_succ _, rfl, ?_⟩
  intro f' hf' _
  simp only [startOne, State.set, List.mem_map] at hf'
  obtain ⟨g, hg, rfl⟩ := hf'
  refine ⟨g, hg, ?_⟩
  split
  · exact ⟨rfl, rfl, rfl, rfl, rfl, Nat.le_succ _⟩
  · exact .refl g

theorem same_startN (f : Fwd) (n : Nat) : ∀ s, Same s (startN f n s) := by
  induction n with
  | zero => intro s; exact .refl s
  | succ n ih => intro s; exact (same_startOne f s).trans (ih _)

theorem same_start (f : Fwd) (s : State) : Same s (start f s) := by
  unfold start; split
  · exact same_startN f _ s
  · exact .refl s

/-- After a start there are as many as configured. -/
theorem start_enough {s : State} {f f' : Fwd} (h : Inv s) (hs : Inv (start f s)) (hf : f ∈ s.fwds) (he : f.enabled = true)
    (hf' : f' ∈ (start f s).fwds) (hi : f'.id = f.id) : f.configured ≤ f'.running := by
  unfold start at hs hf'
  rw [if_pos he] at hs hf'
  obtain ⟨g, h1, h2, h3⟩ := startN_running (f := f) (f.configured - f.running) hf rfl
  have : f' = g := eq_of_nodup_map (ids_nodup hs.F.ids) hf' h1 (hi.trans h2.symm)
  subst this
  omega

/-! ### Lookups -/

theorem base_ask {s : State} (h : Base s) (i n : Nat) : Base (ask i n s) ∧ Wanted i n (ask i n s) ∧
    ∀ j m, Wanted j m s → Wanted j m (ask i n s) := by
  have hnew : ∀ o ∈ s.log, lookCorr o ≠ some s.fresh := fun o ho e => Nat.lt_irrefl _ (h.lt o ho _ e)
  have hlog : (ask i n s).log = .askQueue i s.fresh n :: s.log := rfl
  refine ⟨⟨?_, ?_, ?_, ?_, ?_⟩, ?_, ?_⟩
  · intro c j m j' m' h1 h2
    rw [hlog] at h1 h2
    rcases List.mem_cons.mp h1 with h1 | h1
    · rcases List.mem_cons.mp h2 with h2 | h2
      · rw [← h2] at h1; cases h1; exact ⟨rfl, rfl⟩
      · cases h1; exact absurd rfl (hnew _ h2)
    · rcases List.mem_cons.mp h2 with h2 | h2
      · cases h2; exact absurd rfl (hnew _ h1)
      · exact h.one c j m j' m' h1 h2
  · intro l hl
    rcases List.mem_append.mp hl with hl | hl
    · obtain ⟨m, hm⟩ := h.ask l hl
      exact ⟨m, List.mem_cons_of_mem _ hm⟩
    · rw [List.mem_singleton.mp hl]
      exact ⟨n, List.mem_cons_self ..⟩
  · intro l hl
    rw [hlog]
    rcases List.mem_append.mp hl with hl | hl
    · obtain ⟨h1, h2⟩ := h.open_ l hl
      constructor
      · intro m q p r ho
        rcases List.mem_cons.mp ho with e | ho
        · cases e
        · exact h1 m q p r ho
      · intro ho
        rcases List.mem_cons.mp ho with e | ho
        · cases e
        · exact h2 ho
    · rw [List.mem_singleton.mp hl]
      constructor
      · intro m q p r ho
        rcases List.mem_cons.mp ho with e | ho
        · cases e
        · exact hnew _ ho rfl
      · intro ho
        rcases List.mem_cons.mp ho with e | ho
        · cases e
        · exact hnew _ ho rfl
  · intro o ho c hc
    rw [hlog] at ho
    rcases List.mem_cons.mp ho with rfl | ho
    · cases hc; exact Nat.lt_succ_self _
    · exact Nat.lt_succ_of_lt (h.lt o ho c hc)
  · intro o ho
    rw [hlog] at ho
    rcases List.mem_cons.mp ho with rfl | ho
    · rfl
    · exact h.lost o ho
  · refine ⟨s.fresh, List.mem_append_right _ (List.mem_singleton.mpr rfl), List.mem_cons_self .., ?_⟩
    intro ho
    rcases List.mem_cons.mp ho with e | ho
    · cases e
    · exact hnew _ ho rfl
  · intro j m ⟨c, h1, h2, h3⟩
    refine ⟨c, List.mem_append_left _ h1, List.mem_cons_of_mem _ h2, ?_⟩
    intro ho
    rcases List.mem_cons.mp ho with e | ho
    · cases e
    · exact h3 ho

/-- What is asked for, and what is kept, when a forward looks up its queues. -/
theorem base_askQueues {s : State} (h : Base s) (f : Fwd) : Base (askQueues f s) ∧ Wanted f.id f.source.name (askQueues f s) ∧
    (∀ d, f.dest = some d → Wanted f.id d.name (askQueues f s)) ∧ ∀ j m, Wanted j m s → Wanted j m (askQueues f s) := by
  obtain ⟨h1, h2, h3⟩ := base_ask h f.id f.source.name
  unfold askQueues
  dsimp only
  split
  · next hd => exact ⟨h1, h2, (fun d e => by rw [hd] at e; cases e), h3⟩
  · next d hd =>
    obtain ⟨k1, k2, k3⟩ := base_ask h1 f.id d.name
    exact ⟨k1, k3 _ _ h2, (fun d' e => by rw [hd] at e; cases e; exact k2), fun j m hw => k3 _ _ (h3 j m hw)⟩

theorem askQueues_log (f : Fwd) (s : State) : ∃ a, (askQueues f s).log = a ++ s.log ∧ ∀ o ∈ a, ∃ c n, o = .askQueue f.id c n := by
  unfold askQueues
  dsimp only
  split
  · exact ⟨[_], rfl, fun o ho => ⟨_, _, List.mem_singleton.mp ho⟩⟩
  · refine ⟨[_, _], rfl, ?_⟩
    intro o ho
    rcases List.mem_cons.mp ho with ho | ho
    · exact ⟨_, _, ho⟩
    · exact ⟨_, _, List.mem_singleton.mp ho⟩

/-- A forward asks for its queues when needed; the others go on. -/
theorem askQueues_go {s : State} (hb : Base s) {f : Fwd} {g : Fwd} (h : Going g s) : Going g (askQueues f s) := by
  obtain ⟨_, _, _, h4⟩ := base_askQueues hb f
  rcases h with h | ⟨h1, h2, n, hn, h3⟩
  · exact .inl h
  · refine .inr ⟨?_, ?_, n, hn, h4 _ _ h3⟩
    · rcases h1 with h1 | h1
      · exact .inl h1
      · exact .inr (h4 _ _ h1)
    · intro d hd
      rcases h2 d hd with h2 | h2
      · exact .inl h2
      · exact .inr (h4 _ _ h2)

theorem looks_again (fs : List Fwd) : ∀ {s : State}, Base s →
    Base (fs.foldl (fun s f => lookAgain f s) s) ∧ (fs.foldl (fun s f => lookAgain f s) s).fwds = s.fwds ∧
    (∀ g, Going g s → Going g (fs.foldl (fun s f => lookAgain f s) s)) ∧
    (∀ f ∈ fs, f.enabled = true → 0 < f.configured → Going f (fs.foldl (fun s f => lookAgain f s) s)) := by
  induction fs with
  | nil => intro s h; exact ⟨h, rfl, fun _ => id, fun f hf => by cases hf⟩
  | cons f fs ih =>
    intro s h
    have hb : Base (lookAgain f s) := by
      unfold lookAgain; split
      · exact (base_askQueues h f).1
      · exact h
    have hk : ∀ g, Going g s → Going g (lookAgain f s) := by
      intro g hg
      unfold lookAgain; split
      · exact askQueues_go h hg
      · exact hg
    obtain ⟨h1, h2, h3, h4⟩ := ih hb
    refine ⟨h1, h2.trans (lookAgain_fwds f s), fun g hg => h3 g (hk g hg), ?_⟩
    intro g hg he hc
    rcases List.mem_cons.mp hg with rfl | hg
    · apply h3
      show Going g (lookAgain g s)
      unfold lookAgain
      rw [if_pos (by simp [he, hc])]
      obtain ⟨k1, k2, k3, _⟩ := base_askQueues h g
      exact .inr ⟨.inr k2, fun d hd => .inr (k3 d hd), _, .inl rfl, k2⟩
    · exact h4 g hg he hc

theorem more_cancel (pref : List Nat) (f : Fwd) (s : State) : Same s (cancel pref f s) := by
  refine ⟨?_, ?_, ?_, ?_, ?_⟩
  · unfold cancel
    dsimp only
    split
    · rw [emits_flows, emits_flows]
      refine ⟨_, (List.append_assoc ..).symm, ?_⟩
      intro o ho
      rcases List.mem_append.mp ho with ho | ho <;>
        (obtain ⟨_, _, rfl⟩ := List.mem_map.mp (List.mem_reverse.mp ho); rfl)
    · rw [emits_flows]
      refine ⟨_, rfl, ?_⟩
      intro o ho
      obtain ⟨_, _, rfl⟩ := List.mem_map.mp (List.mem_reverse.mp ho); rfl
  · unfold cancel; dsimp only; split
    · rw [emits_flows, emits_flows]
    · rw [emits_flows]
  · unfold cancel; dsimp only; split
    · rw [emits_flows, emits_flows]; exact Nat.le_refl _
    · rw [emits_flows]; exact Nat.le_refl _
  · unfold cancel; dsimp only; split
    · rw [emits_flows, emits_flows]
    · rw [emits_flows]
  · intro f' hf' _
    rw [cancel_fwds] at hf'
    exact ⟨f', hf', .refl f'⟩

theorem same_cancels (pref : List Nat) (fs : List Fwd) : ∀ s, Same s (fs.foldl (fun s f => cancel pref f s) s) := by
  induction fs with
  | nil => intro s; exact .refl s
  | cons f fs ih => intro s; exact (more_cancel pref f s).trans (ih _)

theorem base_drop {s : State} (h : Base s) (hi : Inv s) : Base (dropLookups s) := by
  have hd : dropLookups s = { s with log := (s.lookups.map fun l => Obs.dropQueue l.corr).reverse ++ s.log } := by
    unfold dropLookups; rw [emits_flows]
  rw [hd]
  have back : ∀ o, o ∈ (s.lookups.map fun l => Obs.dropQueue l.corr).reverse ++ s.log → (∃ l ∈ s.lookups, o = .dropQueue l.corr) ∨ o ∈ s.log := by
    intro o ho
    rcases List.mem_append.mp ho with ho | ho
    · obtain ⟨l, hl, rfl⟩ := List.mem_map.mp (List.mem_reverse.mp ho)
      exact .inl ⟨l, hl, rfl⟩
    · exact .inr ho
  refine ⟨?_, ?_, ?_, ?_, ?_⟩
  · intro c i n i' n' h1 h2
    rcases back _ h1 with ⟨_, _, e⟩ | h1
    · cases e
    rcases back _ h2 with ⟨_, _, e⟩ | h2
    · cases e
    exact h.one c i n i' n' h1 h2
  · intro l hl
    obtain ⟨n, hn⟩ := h.ask l hl
    exact ⟨n, List.mem_append_right _ hn⟩
  · intro l hl
    obtain ⟨h1, h2⟩ := h.open_ l hl
    constructor
    · intro n q p r ho
      rcases back _ ho with ⟨_, _, e⟩ | ho
      · cases e
      · exact h1 n q p r ho
    · intro ho
      rcases back _ ho with ⟨_, _, e⟩ | ho
      · cases e
      · exact h2 ho
  · intro o ho c hc
    rcases back _ ho with ⟨l, hl, rfl⟩ | ho
    · cases hc; exact hi.L.lt l hl
    · exact h.lt o ho c hc
  · intro o ho
    rcases back _ ho with ⟨l, hl, rfl⟩ | ho
    · rfl
    · exact h.lost o ho

theorem comply_go {s : State} (h : Base s) (hi : Inv s) (pref : List Nat) : Base (comply pref s) ∧ AllGo (comply pref s) := by
  have hfw := comply_fwds hi pref
  unfold comply at hfw ⊢
  dsimp only at hfw ⊢
  have h1 := (base_drop h hi).same (same_cancels pref (queues (dropLookups s) ++ services (dropLookups s)) _)
  generalize (queues (dropLookups s) ++ services (dropLookups s)).foldl (fun s f => cancel pref f s) (dropLookups s) = s2 at h1 hfw ⊢
  obtain ⟨k1, k2, _, k4⟩ := looks_again (services s2 ++ queues s2) h1
  refine ⟨k1, ?_⟩
  intro f hf he hc _ _
  rw [k2] at hf
  refine k4 f ?_ he hc
  cases hs : f.service with
  | none => exact List.mem_append_right _ (List.mem_filter.mpr ⟨hf, by simp [hs]⟩)
  | some v => exact List.mem_append_left _ (List.mem_filter.mpr ⟨hf, by simp [hs]⟩)

/-! ### A message has ended -/

theorem next_go {s : State} {i : Nat} {g : Fwd} {k : Fwd → Fwd} (hb : Base s) (ha : AllGo s)
    (hn : (s.fwds.map (·.id)).Nodup) (hg : g ∈ s.fwds) (hid : g.id = i) (hrun : g.running ≠ 0) (hk : Kept k)
    (hsd : ∀ f : Fwd, (k f).source = f.source ∧ (k f).dest = f.dest)
    (h1 : Inv (finish i k s)) (h3 : Inv (next i (finish i k s))) :
    Base (next i (finish i k s)) ∧ AllGo (next i (finish i k s)) := by
  subst hid
  rw [finish_eq hn hg hrun] at h1 h3 ⊢
  have hlog : More s (s.set g.id fun f => k f.dec) := .refl rfl
  have hb1 : Base (s.set g.id fun f => k f.dec) := hb.more hlog rfl (Nat.le_refl _)
  have hm1 : k g.dec ∈ (s.set g.id fun f => k f.dec).fwds := by
    simp only [State.set, List.mem_map]
    exact ⟨g, hg, by rw [if_pos rfl]⟩
  have hkid : (k g.dec).id = g.id := ((hk g.dec).1).trans (kept_dec g).1
  have hother : ∀ f ∈ (s.set g.id fun f => k f.dec).fwds, f.id ≠ g.id → f ∈ s.fwds := by
    intro f hf hne
    obtain ⟨f0, hf0, e⟩ := mem_set hf
    by_cases h0 : f0.id = g.id
    · rw [if_pos h0] at e
      rw [e] at hne
      exact absurd (((hk f0.dec).1).trans ((kept_dec f0).1.trans h0)) hne
    · rw [if_neg h0] at e
      rw [e]; exact hf0
  have hthis : ∀ f ∈ (s.set g.id fun f => k f.dec).fwds, f.id = g.id → f = k g.dec := fun f hf he =>
    eq_of_nodup_map (ids_nodup h1.F.ids) hf hm1 (he.trans hkid.symm)
  have hget : (s.set g.id fun f => k f.dec).get g.id = some (k g.dec) := by
    have key : (s.set g.id fun f => k f.dec).get (k g.dec).id = some (k g.dec) := get_of_mem (ids_nodup h1.F.ids) hm1
    generalize (s.set g.id fun f => k f.dec) = S at key ⊢
    rw [← key, hkid]
  have hen : (k g.dec).enabled = g.enabled := ((hk g.dec).2.2.2.2.2.2.1).trans (kept_dec g).2.2.2.2.2.2.1
  have hcf : (k g.dec).configured = g.configured := ((hk g.dec).2.2.2.2.2.2.2.1).trans (kept_dec g).2.2.2.2.2.2.2.1
  have hsrc : 0 < g.configured → (k g.dec).source = g.source ∧ (k g.dec).dest = g.dest := by
    intro hc
    rw [(hsd g.dec).1, (hsd g.dec).2]
    unfold Fwd.dec
    dsimp only
    rw [if_neg (by omega)]
    exact ⟨rfl, rfl⟩
  have hgo : ∀ f ∈ (s.set g.id fun f => k f.dec).fwds, f.enabled = true → 0 < f.configured → s.down = false →
      Fine f (s.set g.id fun f => k f.dec) → f.id ≠ g.id ∨ f.valid = false → Going f (s.set g.id fun f => k f.dec) := by
    intro f hf he hc hd hF hor
    by_cases hi : f.id = g.id
    · have hv : f.valid = false := by rcases hor with h | h
                                      · exact absurd hi h
                                      · exact h
      have := hthis f hf hi
      subst this
      have hc' : 0 < g.configured := hcf ▸ hc
      obtain ⟨e1, e2⟩ := hsrc hc'
      have hF' : Fine g s := by unfold Fine at hF ⊢; rw [e2] at hF; exact hF
      have hv' : g.valid = false := by unfold Fwd.valid at hv ⊢; rw [e1, e2] at hv; exact hv
      have := ha g hg (hen ▸ he) hc' hd hF'
      rcases this with ⟨h, _⟩ | h
      · rw [hv'] at h; cases h
      · refine Going.more (s := s) (.inr ?_) hlog fun _ => id
        rw [e1, e2, hkid]; exact h
    · exact (ha f (hother f hf hi) he hc hd (hF.back fun o => id)).more hlog fun _ => id
  generalize hS : (s.set g.id fun f => k f.dec) = S at *
  have hdn : S.down = s.down := by rw [← hS]; rfl
  unfold next at h3 ⊢
  rw [hget] at h3 ⊢
  dsimp only at h3 ⊢
  by_cases hv : (k g.dec).valid = true
  · rw [if_pos hv] at h3 ⊢
    have hsm := same_start (k g.dec) S
    refine ⟨hb1.same hsm, ?_⟩
    intro f' hf' he hc hd hF
    obtain ⟨f, hf, al⟩ := hsm.fwds f' hf' hF
    have hF' : Fine f S := by
      refine Fine.back ?_ fun o ho => hsm.more.mem ho
      unfold Fine at hF ⊢
      rw [← al.2.2.1]; exact hF
    by_cases hi : f.id = g.id
    · have := hthis f hf hi
      subst this
      refine .inl ⟨al.valid.trans hv, ?_⟩
      rw [al.2.2.2.2.1]
      exact start_enough h1 h3 hm1 (al.2.2.2.1 ▸ he) hf' al.1
    · exact ((hgo f hf (al.2.2.2.1 ▸ he) (al.2.2.2.2.1 ▸ hc) (by rw [← hdn, ← hsm.down]; exact hd) hF' (.inl hi)).more hsm.more
        (by rw [hsm.looks]; exact fun _ => id)).alike al
  · rw [if_neg hv] at h3 ⊢
    have hor : ∀ f ∈ S.fwds, f.id ≠ g.id ∨ f.valid = false := by
      intro f hf
      by_cases hi : f.id = g.id
      · right; rw [hthis f hf hi]; simpa using hv
      · exact .inl hi
    split
    · exact ⟨hb1, fun f hf he hc hd hF => hgo f hf he hc (hdn ▸ hd) hF (hor f hf)⟩
    · refine ⟨(base_askQueues hb1 _).1, ?_⟩
      intro f hf he hc hd hF
      rw [askQueues_fwds] at hf
      have hF' : Fine f S := hF.back fun o ho => by
        obtain ⟨a, e, _⟩ := askQueues_log (k g.dec) S
        rw [e]; exact List.mem_append_right _ ho
      have hdd : (askQueues (k g.dec) S).down = S.down := by
        unfold askQueues; dsimp only; split <;> rfl
      exact askQueues_go hb1 (hgo f hf he hc (by rw [← hdn, ← hdd]; exact hd) hF' (hor f hf))

/-- The events that end a message. -/
theorem ended_go {s : State} {o : Obs} {c : Nat} {p : Stage → Bool} {x : Flow} {s' : State} {k : Fwd → Fwd} (h : Inv s) (hb : Base s)
    (ha : AllGo s) (hne : neutral o = true) (ho : heard o = some c) (hp : plain o = true) (ht : take c p (emit o s) = some (x, s'))
    (hw : hear s.log (phaseOf x) o = .over) (hk : Kept k) (hr : ∀ f, (k f).running = f.running) (hu : isUndelivered o = false)
    (hgc : ∀ f, (k f).commits = (if isCommitted o = true then 1 else 0) + f.commits)
    (hgr : ∀ f, (k f).rollbacks = (if isRolledBack o = true then 1 else 0) + f.rollbacks)
    (hsd : ∀ f : Fwd, (k f).source = f.source ∧ (k f).dest = f.dest) :
    Base (next x.id (finish x.id k s')) ∧ AllGo (next x.id (finish x.id k s')) := by
  obtain ⟨h1, h2⟩ := inv_finish h ho hp ht hw hk hr hu hgc hgr
  obtain ⟨a, b, hs, hs', hc, hx⟩ := take_some ht
  have hs : s.flows = a ++ x :: b := hs
  have hsm : Same s s' := (same_emit hne).trans (same_take ht)
  have hmx : x ∈ s.flows := by rw [hs]; exact List.mem_append_right _ (List.mem_cons_self ..)
  obtain ⟨g, hg, hi, _⟩ := h.R.ex x hmx
  have hfw : s'.fwds = s.fwds := by rw [hs']; rfl
  have hrun : g.running ≠ 0 := by
    have := h.R.run g hg
    have : 0 < cnt g.id s.flows := List.length_pos_of_mem (List.mem_filter.mpr ⟨hmx, by simp [hi]⟩)
    omega
  exact next_go (hb.same hsm) (ha.same hsm) (by rw [hfw]; exact ids_nodup h.F.ids) (by rw [hfw]; exact hg) hi hrun hk hsd h1
    (inv_next h1 h2)

/-- An enqueue goes to a queue. -/
theorem enqueue_dest {s : State} (h : Inv s) {x : Flow} (hx : x ∈ s.flows) (hs : x.stage = .enqueue) {f : Fwd} (hf : f ∈ s.fwds)
    (hi : f.id = x.id) : f.dest ≠ none := by
  have hfa := facts x.corr s.log
  rw [h.W.here x hx] at hfa
  unfold phaseOf at hfa
  rw [hs] at hfa
  obtain ⟨y, m, n, p, q, hy, _, hor⟩ := hfa
  obtain ⟨z, hz, hm⟩ := h.F.conf f hf
  have : z = y := created_once h (hi ▸ confOf_mem hz) hy
  subst this
  have hd : z.target.dest = some n := by
    rcases hor with ⟨e, _⟩ | ⟨_, e, _⟩
    · rw [e]; rfl
    · exact e
  intro e
  have := hm.2.2.2.1
  rw [e, hd] at this
  cases this

theorem same_acked {s : State} (h : Inv s) (c : Nat) (ok : Bool) : Same s (acked c ok (emit (.acked c ok) s)) := by
  have he : Same s (emit (.acked c ok) s) := same_emit rfl
  unfold acked
  cases ht : take c (· == .enqueue) (emit (.acked c ok) s) with
  | none => exact he
  | some r =>
    obtain ⟨x, s'⟩ := r
    have h1 := he.trans (same_take ht)
    obtain ⟨a, b, hs, hs', hc, hx⟩ := take_some ht
    have hmx : x ∈ s.flows := by
      have hs : s.flows = a ++ x :: b := hs
      rw [hs]; exact List.mem_append_right _ (List.mem_cons_self ..)
    have hst : x.stage = .enqueue := by simpa using hx
    dsimp only
    split
    · exact h1.trans (same_move rfl)
    · next hok =>
      have hok : ok = false := by simpa using hok
      split
      · exact h1.trans ⟨.refl rfl, rfl, Nat.le_refl _, rfl, fun f hf _ => ⟨f, hf, .refl f⟩⟩
      · refine h1.trans ?_
        refine Same.trans (s' := s'.set x.id Fwd.invalidate) ?_ (same_move rfl)
        refine ⟨.refl rfl, rfl, Nat.le_refl _, rfl, ?_⟩
        intro f' hf' hF
        obtain ⟨f, hf, e⟩ := mem_set hf'
        by_cases hi : f.id = x.id
        · exfalso
          rw [if_pos hi] at e
          have hd := enqueue_dest h hmx hst (f := f) (by rw [hs'] at hf; exact hf) hi
          rcases hF with hF | hF
          · rw [e] at hF
            unfold Fwd.invalidate at hF
            cases hdd : f.dest with
            | none => exact hd hdd
            | some d => rw [hdd] at hF; cases hF
          · refine hF c ?_
            show Obs.acked c false ∈ s'.log
            rw [hs', hok]
            exact List.mem_cons_self ..
        · rw [if_neg hi] at e
          exact ⟨f, hf, e ▸ .refl f⟩

theorem same_got (c m) (s : State) : Same s (got c m s) := by
  unfold got
  split
  · exact .refl s
  · next x s' ht =>
    have h1 := same_take ht
    split
    · exact h1.trans (same_move rfl)
    · split
      · exact h1.trans (same_move rfl)
      · split
        · exact h1
        · split
          · exact h1.trans (same_move rfl)
          · exact h1.trans (same_move rfl)
          · exact h1.trans ⟨.refl rfl, rfl, Nat.le_refl _, rfl, fun f hf _ => ⟨f, hf, .refl f⟩⟩

theorem same_found (c p) (s : State) : Same s (found c p s) := by
  unfold found
  split
  · exact .refl s
  · next x s' ht =>
    split <;> exact (same_take ht).trans (same_move rfl)

theorem same_dropped (c) (s : State) : Same s (dropped c s) := by
  unfold dropped
  split
  · exact .refl s
  · next x s' ht => exact (same_take ht).trans (same_move rfl)

theorem same_replied (c ok m) (s : State) : Same s (replied c ok m s) := by
  unfold replied
  split
  · exact .refl s
  · next x s' ht =>
    have h1 := same_take ht
    split
    · exact h1.trans ⟨.refl rfl, rfl, Nat.le_refl _, rfl, fun f hf _ => ⟨f, hf, .refl f⟩⟩
    · split
      · split <;> exact h1.trans (same_move rfl)
      · exact h1.trans (same_move rfl)

/-! ### Where the queues are -/

theorem ok_assign {n : Nat} {q p : Option Nat} {f : Fwd} (hq : q.isSome = true) (hp : p.isSome = true) :
    ((f.source.ok = true ∨ f.source.name = n) → (assign n q p false f).source.ok = true) ∧
    ∀ d', (assign n q p false f).dest = some d' → ∃ d, f.dest = some d ∧ d'.name = d.name ∧ ((d.ok = true ∨ d.name = n) → d'.ok = true) := by
  constructor
  · intro h
    unfold assign
    dsimp only
    split
    · simp [Source.ok, hq, hp]
    · next hne =>
      rcases h with h | h
      · exact h
      · exact absurd ⟨h, rfl⟩ hne
  · intro d' hd'
    unfold assign at hd'
    dsimp only at hd'
    cases hd : f.dest with
    | none => rw [hd] at hd'; cases hd'
    | some d =>
      rw [hd] at hd'
      simp only [Option.map_some, Option.some.injEq] at hd'
      subst hd'
      refine ⟨d, rfl, ?_, ?_⟩
      · split <;> rfl
      · intro h
        split
        · simp [Source.ok, hq, hp]
        · next hne =>
          rcases h with h | h
          · exact h
          · exact absurd h hne

theorem mem_eraseP_ne {l : Look} {ls : List Look} {c : Nat} (h : l ∈ ls) (hc : l.corr ≠ c) : l ∈ ls.eraseP (·.corr == c) := by
  induction ls with
  | nil => cases h
  | cons a ls ih =>
    rw [List.eraseP_cons]
    rcases List.mem_cons.mp h with rfl | h
    · have : (l.corr == c) = false := by simpa using hc
      rw [this]
      exact List.mem_cons_self ..
    · cases hb : (a.corr == c)
      · exact List.mem_cons_of_mem _ (ih h)
      · exact h

/-- An answer of the queue manager is noted. -/
theorem base_answer {s : State} {o : Obs} {c : Nat} (hb : Base s) (hi : Inv s) (hlt : c < s.fresh) (hnew : o = .queueDropped c false ∨ ∃ n q p r, o = .queueAt c n q p r) :
    Base { emit o s with lookups := s.lookups.eraseP (·.corr == c) } := by
  have back : ∀ o', o' ∈ (emit o s).log → o' = o ∨ o' ∈ s.log := fun o' ho => List.mem_cons.mp ho
  have hnd : ∀ l ∈ s.lookups.eraseP (·.corr == c), l.corr ≠ c := by
    intro l hl e
    have hn := hi.L.nodup
    generalize s.lookups = ls at hl hn
    induction ls with
    | nil => cases hl
    | cons a ls ih =>
      rw [List.eraseP_cons] at hl
      rw [List.map_cons, List.nodup_cons] at hn
      cases hab : (a.corr == c)
      · rw [hab] at hl
        rcases List.mem_cons.mp hl with rfl | hl
        · rw [e] at hab; simp at hab
        · exact ih hl hn.2
      · rw [hab] at hl
        have : a.corr = c := by simpa using hab
        exact hn.1 (List.mem_map.mpr ⟨l, hl, e.trans this.symm⟩)
  refine ⟨?_, ?_, ?_, ?_, ?_⟩
  · intro c i n i' n' h1 h2
    rcases back _ h1 with e | h1
    · rcases hnew with rfl | ⟨_, _, _, _, rfl⟩ <;> cases e
    rcases back _ h2 with e | h2
    · rcases hnew with rfl | ⟨_, _, _, _, rfl⟩ <;> cases e
    exact hb.one c i n i' n' h1 h2
  · intro l hl
    obtain ⟨n, hn⟩ := hb.ask l (List.mem_of_mem_eraseP hl)
    exact ⟨n, List.mem_cons_of_mem _ hn⟩
  · intro l hl
    have hne := hnd l hl
    obtain ⟨h1, h2⟩ := hb.open_ l (List.mem_of_mem_eraseP hl)
    constructor
    · intro n q p r ho
      rcases back _ ho with e | ho
      · rcases hnew with rfl | ⟨_, _, _, _, rfl⟩
        · cases e
        · cases e; exact hne rfl
      · exact h1 n q p r ho
    · intro ho
      rcases back _ ho with e | ho
      · rcases hnew with rfl | ⟨_, _, _, _, rfl⟩
        · cases e; exact hne rfl
        · cases e
      · exact h2 ho
  · intro o' ho c' hc
    rcases back _ ho with rfl | ho
    · rcases hnew with rfl | ⟨_, _, _, _, rfl⟩ <;> (cases hc; exact hlt)
    · exact hb.lt o' ho c' hc
  · intro o' ho
    rcases back _ ho with rfl | ho
    · rcases hnew with rfl | ⟨_, _, _, _, rfl⟩ <;> rfl
    · exact hb.lost o' ho

theorem wanted_answer {s : State} {o : Obs} {c i n : Nat} (hnew : o = .queueDropped c false ∨ ∃ n q p r, o = .queueAt c n q p r)
    (h : Wanted i n s) (hc : .askQueue i c n ∈ s.log → .dropQueue c ∉ s.log → False) :
    Wanted i n { emit o s with lookups := s.lookups.eraseP (·.corr == c) } := by
  obtain ⟨d, h1, h2, h3⟩ := h
  have hne : d ≠ c := fun e => hc (e ▸ h2) (e ▸ h3)
  refine ⟨d, mem_eraseP_ne h1 hne, List.mem_cons_of_mem _ h2, ?_⟩
  intro ho
  rcases List.mem_cons.mp ho with e | ho
  · rcases hnew with rfl | ⟨_, _, _, _, rfl⟩ <;> cases e
  · exact h3 ho

theorem going_map {s s' : State} {f : Fwd} (h : Going f s) (hw : ∀ n, Wanted f.id n s → Wanted f.id n s') : Going f s' := by
  rcases h with h | ⟨h1, h2, n, hn, h3⟩
  · exact .inl h
  · refine .inr ⟨?_, ?_, n, hn, hw _ h3⟩
    · rcases h1 with h1 | h1
      · exact .inl h1
      · exact .inr (hw _ h1)
    · intro d hd
      rcases h2 d hd with h2 | h2
      · exact .inl h2
      · exact .inr (hw _ h2)

theorem queueDropped_go {s : State} {c : Nat} {r : Bool} (hi : Inv s) (hb : Base s) (ha : AllGo s)
    (hp : proper s.log (.queueDropped c r) = true) :
    Base (queueDropped c r (emit (.queueDropped c r) s)) ∧ AllGo (queueDropped c r (emit (.queueDropped c r) s)) := by
  unfold queueDropped
  cases r with
  | true =>
    have := same_emit (s := s) (o := .queueDropped c true) rfl
    exact ⟨hb.same this, ha.same this⟩
  | false =>
    have hd : .dropQueue c ∈ s.log := by simpa [proper] using hp
    have hlt := hb.lt _ hd c rfl
    refine ⟨base_answer hb hi hlt (.inl rfl), ?_⟩
    intro f hf he hc hdn hF
    refine going_map (ha f hf he hc hdn (hF.back fun o ho => List.mem_cons_of_mem _ ho)) ?_
    intro n hw
    exact wanted_answer (.inl rfl) hw fun _ h => h hd

theorem queueAt_go {s : State} {c n : Nat} {q p : Option Nat} {r : Bool} (hi : Inv s) (hb : Base s) (ha : AllGo s)
    (hp : proper s.log (.queueAt c n q p r) = true) :
    Base (queueAt c n q p r (emit (.queueAt c n q p r) s)) ∧ AllGo (queueAt c n q p r (emit (.queueAt c n q p r) s)) := by
  have hall := inv_queueAt (c := c) (name := n) (q := q) (p := p) (r := r) hi
  obtain ⟨hq, hpp, hr, i, hask⟩ : q.isSome = true ∧ p.isSome = true ∧ r = false ∧ ∃ i, .askQueue i c n ∈ s.log := by
    simp only [proper, Bool.and_eq_true, Bool.not_eq_true', List.any_eq_true] at hp
    obtain ⟨⟨⟨h1, h2⟩, h3⟩, o, ho, h4⟩ := hp
    refine ⟨h1, h2, h3, ?_⟩
    cases o <;> simp only [Bool.and_eq_true, beq_iff_eq, reduceCtorEq] at h4
    obtain ⟨e1, e2⟩ := h4
    subst e1; subst e2
    exact ⟨_, ho⟩
  subst hr
  have hlt := hb.lt _ hask c rfl
  have hB := base_answer (o := .queueAt c n q p false) hb hi hlt (.inr ⟨_, _, _, _, rfl⟩)
  unfold queueAt at hall ⊢
  have hlk : (emit (.queueAt c n q p false) s).lookups = s.lookups := rfl
  rw [hlk] at hall ⊢
  cases hf : s.lookups.find? (·.corr == c) with
  | none =>
    dsimp only
    have hno : ∀ l ∈ s.lookups, l.corr ≠ c := by
      intro l hl e
      have := List.find?_eq_none.mp hf l hl
      simp [e] at this
    have he : s.lookups.eraseP (·.corr == c) = s.lookups :=
      List.eraseP_of_forall_not fun l hl => by simp [hno l hl]
    rw [he] at hB
    refine ⟨hB, ?_⟩
    intro f hf' hen hc hdn hF
    refine going_map (ha f hf' hen hc hdn (hF.back fun o ho => List.mem_cons_of_mem _ ho)) ?_
    intro m ⟨d, h1, h2, h3⟩
    refine ⟨d, h1, List.mem_cons_of_mem _ h2, ?_⟩
    intro ho
    rcases List.mem_cons.mp ho with e | ho
    · cases e
    · exact h3 ho
  | some l =>
    rw [hf] at hall
    dsimp only at hall ⊢
    have hlc : l.corr = c := by simpa using List.find?_some hf
    have hlm : l ∈ s.lookups := List.mem_of_find?_eq_some hf
    obtain ⟨m, hm⟩ := hb.ask l hlm
    rw [hlc] at hm
    obtain ⟨rfl, rfl⟩ := hb.one _ _ _ _ _ hm hask
    by_cases hdn : s.down = true
    · rw [if_pos (show (emit (.queueAt c m q p false) s).down = true from hdn)]
      refine ⟨hB, ?_⟩
      intro f _ _ _ hd
      have hd : s.down = false := hd
      rw [hdn] at hd; cases hd
    rw [if_neg (show ¬ (emit (.queueAt c m q p false) s).down = true from hdn)] at hall ⊢
    obtain ⟨f, hfm, hfi⟩ := hi.L.ex l hlm
    have hget : s.get l.id = some f := by rw [← hfi]; exact get_of_mem (ids_nodup hi.F.ids) hfm
    have hget' : State.get { emit (.queueAt c m q p false) s with lookups := s.lookups.eraseP (·.corr == c) } l.id = some f := hget
    rw [hget'] at hall ⊢
    dsimp only at hall ⊢
    generalize hs1 : ({ emit (.queueAt c m q p false) s with lookups := s.lookups.eraseP (·.corr == c) } : State) = s1 at hB hall ⊢
    have hfw1 : s1.fwds = s.fwds := by rw [← hs1]; rfl
    have hdn1 : s1.down = s.down := by rw [← hs1]; rfl
    have hwant : ∀ j k, Wanted j k s → (j ≠ l.id ∨ k ≠ m) → Wanted j k s1 := by
      intro j k hw hne
      rw [← hs1]
      refine wanted_answer (.inr ⟨_, _, _, _, rfl⟩) hw ?_
      intro h1 _
      obtain ⟨e1, e2⟩ := hb.one _ _ _ _ _ h1 hm
      rcases hne with h | h
      · exact h e1
      · exact h e2
    have hlog1 : ∀ o ∈ s.log, o ∈ s1.log := by rw [← hs1]; exact fun o ho => List.mem_cons_of_mem _ ho
    have hkeep : More s1 (s1.set l.id fun _ => assign m q p false f) := .refl rfl
    have hB2 : Base (s1.set l.id fun _ => assign m q p false f) := hB.more hkeep rfl (Nat.le_refl _)
    have hid' : (assign m q p false f).id = l.id := hfi
    obtain ⟨hA1, hA2⟩ := ok_assign (n := m) (f := f) hq hpp
    have hmem : assign m q p false f ∈ (s1.set l.id fun _ => assign m q p false f).fwds := by
      simp only [State.set, List.mem_map]
      exact ⟨f, by rw [hfw1]; exact hfm, by rw [if_pos hfi]⟩
    have hsplit : ∀ g ∈ (s1.set l.id fun _ => assign m q p false f).fwds, g = assign m q p false f ∨ (g ∈ s.fwds ∧ g.id ≠ l.id) := by
      intro g hg
      obtain ⟨g0, hg0, e⟩ := mem_set hg
      by_cases h0 : g0.id = l.id
      · rw [if_pos h0] at e; exact .inl e
      · rw [if_neg h0] at e; subst e; exact .inr ⟨hfw1 ▸ hg0, h0⟩
    have hother : ∀ g ∈ s.fwds, g.id ≠ l.id → g.enabled = true → 0 < g.configured → s.down = false → Fine g s → Going g s1 :=
      fun g hg hne he hc hd hF => going_map (ha g hg he hc hd hF) fun k hw => hwant _ k hw (.inl hne)
    have hinv2 : Inv (s1.set l.id fun _ => assign m q p false f) := by
      rw [← hs1]
      exact inv_assign (c := c) (s := emit (.queueAt c m q p false) s) (inv_emit (o := .queueAt c m q p false) hi rfl rfl)
        (List.mem_cons_self ..) hf hfm hfi
    by_cases hv : (assign m q p false f).valid = true
    · rw [if_pos hv] at hall ⊢
      have hsm := same_start (assign m q p false f) (s1.set l.id fun _ => assign m q p false f)
      refine ⟨hB2.same hsm, ?_⟩
      intro g' hg' he hc hd hF
      obtain ⟨g, hg, al⟩ := hsm.fwds g' hg' hF
      rcases hsplit g hg with rfl | ⟨hg0, hne⟩
      · refine .inl ⟨al.valid.trans hv, ?_⟩
        rw [al.2.2.2.2.1]
        exact start_enough hinv2 hall hmem (al.2.2.2.1 ▸ he) hg' al.1
      · have hF' : Fine g s := by
          refine Fine.back (s' := start (assign m q p false f) (s1.set l.id fun _ => assign m q p false f)) ?_ fun o ho => hsm.more.mem (hlog1 o ho)
          unfold Fine at hF ⊢
          rw [← al.2.2.1]; exact hF
        refine Going.alike ?_ al
        exact ((hother g hg0 hne (al.2.2.2.1 ▸ he) (al.2.2.2.2.1 ▸ hc) (by rw [← hdn1]; exact hsm.down ▸ hd) hF').more hkeep fun _ => id).more
          hsm.more (by rw [hsm.looks]; exact fun _ => id)
    · rw [if_neg hv] at hall ⊢
      refine ⟨hB2, ?_⟩
      intro g hg he hc hd hF
      have hF1 : Fine g s := hF.back hlog1
      rcases hsplit g hg with rfl | ⟨hg0, hne⟩
      · have hFf : Fine f s := by
          rcases hF1 with h | h
          · left
            cases hfd : f.dest with
            | none => rfl
            | some d => unfold assign at h; rw [hfd] at h; cases h
          · exact .inr h
        refine Going.more ?_ hkeep fun _ => id
        have hgo := ha f hfm he hc (hdn1 ▸ hd) hFf
        have hw : ∀ k, Wanted f.id k s → k ≠ m → Wanted (assign m q p false f).id k s1 := fun k hk hne => hwant _ k hk (.inr hne)
        have hname : (assign m q p false f).source.name = f.source.name := by
          unfold assign; dsimp only; split <;> rfl
        have hS : (assign m q p false f).source.ok = true ∨ Wanted (assign m q p false f).id (assign m q p false f).source.name s1 := by
          rw [hname]
          by_cases h0 : f.source.ok = true ∨ f.source.name = m
          · exact .inl (hA1 h0)
          · right
            rcases hgo with ⟨h, _⟩ | ⟨h, _, _⟩
            · unfold Fwd.valid at h; rw [Bool.and_eq_true] at h; exact absurd (.inl h.1) h0
            · rcases h with h | h
              · exact absurd (.inl h) h0
              · exact hw _ h fun e => h0 (.inr e)
        have hD : ∀ d, (assign m q p false f).dest = some d → d.ok = true ∨ Wanted (assign m q p false f).id d.name s1 := by
          intro d' hd'
          obtain ⟨d, h1, h2, h3⟩ := hA2 d' hd'
          by_cases h0 : d.ok = true ∨ d.name = m
          · exact .inl (h3 h0)
          · right
            rw [h2]
            rcases hgo with ⟨h, _⟩ | ⟨_, h, _⟩
            · unfold Fwd.valid at h; rw [h1, Bool.and_eq_true] at h; exact absurd (.inl h.2) h0
            · rcases h d h1 with h | h
              · exact absurd (.inl h) h0
              · exact hw _ h fun e => h0 (.inr e)
        refine .inr ⟨hS, hD, ?_⟩
        rcases hS with hS | hS
        · cases hfd : (assign m q p false f).dest with
          | none => exfalso; apply hv; unfold Fwd.valid; rw [hS, hfd]; rfl
          | some d =>
            rcases hD d hfd with h | h
            · exfalso; apply hv; unfold Fwd.valid; rw [hS, hfd]; simpa using h
            · exact ⟨_, .inr rfl, h⟩
        · exact ⟨_, .inl rfl, hS⟩
      · exact (hother g hg0 hne he hc (hdn1 ▸ hd) hF1).more hkeep fun _ => id

theorem apply_go {s : State} (e : Event) (hi : Inv s) (hb : Base s) (ha : AllGo s) (hp : proper s.log e = true) :
    Base (apply e s) ∧ AllGo (apply e s) := by
  have two : ∀ s', Same s s' → Base s' ∧ AllGo s' := fun s' h => ⟨hb.same h, ha.same h⟩
  have heard1 : ∀ (x : Flow) (p : Stage → Bool), p x.stage = true → (p = (· == .dequeue) → x.stage = .dequeue) ∧
      (p = (· == .rollback) → x.stage = .rollback) ∧ (p = (· == .commit) → x.stage = .commit) := by
    intro x p h
    refine ⟨?_, ?_, ?_⟩ <;> (intro e; subst e; simpa using h)
  cases e with
  | update xs pref =>
    show Base (update xs pref s) ∧ AllGo (update xs pref s)
    unfold update
    generalize xs.filter (·.target.svc.isSome) ++ xs.filter (·.target.svc.isNone) = ys
    refine comply_go ?_ (inv_fold ys hi) pref
    clear hi ha two hp heard1
    induction ys generalizing s with
    | nil => exact hb
    | cons y ys ih =>
      refine ih ?_
      show Base (addOrUpdate y s)
      unfold addOrUpdate
      split
      · exact hb.more (more_one rfl rfl) rfl (Nat.le_refl _)
      · refine hb.more (s' := _) ⟨[_, _], rfl, ?_⟩ rfl (Nat.le_refl _)
        intro o ho
        rcases List.mem_cons.mp ho with rfl | ho
        · rfl
        · rw [List.mem_singleton.mp ho]; rfl
  | shutdown pref =>
    show Base (shutdown pref (emit .shutdown s)) ∧ AllGo (shutdown pref (emit .shutdown s))
    unfold shutdown
    have := inv_down hi
    refine comply_go ?_ this pref
    exact hb.more (more_one (o := .shutdown) rfl rfl) rfl (Nat.le_refl _)
  | exited p => cases hp
  | forgetRequest c => cases hp
  | undelivered c => cases hp
  | queueAt c n q p r => exact queueAt_go hi hb ha hp
  | queueDropped c r => exact queueDropped_go hi hb ha hp
  | got c m => exact two _ ((same_emit rfl).trans (same_got c m _))
  | found c p => exact two _ ((same_emit rfl).trans (same_found c p _))
  | dropped c => exact two _ ((same_emit rfl).trans (same_dropped c _))
  | replied c ok m => exact two _ ((same_emit rfl).trans (same_replied c ok m _))
  | acked c ok => exact two _ (same_acked hi c ok)
  | own i =>
    simp only [apply]
    split
    · exact ⟨hb, ha⟩
    · next c hc =>
      refine two _ (Same.trans ?_ (same_acked (inv_own hi) c false))
      exact ⟨.refl rfl, rfl, Nat.le_refl _, rfl, fun f hf _ => ⟨f, hf, .refl f⟩⟩
  | forgotten c d =>
    show Base (forgotten c d _) ∧ AllGo (forgotten c d _)
    unfold forgotten
    split
    · next hd =>
      subst hd
      cases ht : take c (· == .dequeue) (emit (.forgotten c true) s) with
      | none => exact two _ (same_emit rfl)
      | some r =>
        obtain ⟨x, s'⟩ := r
        obtain ⟨a, b, hs, hs', hc, hx⟩ := take_some ht
        exact ended_go (k := id) hi hb ha rfl rfl rfl ht (by rw [stage_dequeue hx]; rfl)
          (fun f => ⟨rfl, rfl, rfl, rfl, rfl, rfl, rfl, rfl, fun _ => rfl⟩) (fun _ => rfl) rfl
          (fun f => by simp [isCommitted, Nat.add_comm]) (fun f => by simp [isRolledBack, Nat.add_comm]) (fun _ => ⟨rfl, rfl⟩)
    · exact two _ (same_emit rfl)
  | rolledBack c ok =>
    show Base (rolledBack c _) ∧ AllGo (rolledBack c _)
    unfold rolledBack
    cases ht : take c (· == .rollback) (emit (.rolledBack c ok) s) with
    | none => exact two _ (same_emit rfl)
    | some r =>
      obtain ⟨x, s'⟩ := r
      obtain ⟨a, b, hs, hs', hc, hx⟩ := take_some ht
      exact ended_go (k := fun f => { f with rollbacks := f.rollbacks + 1 }) hi hb ha rfl rfl rfl ht
        (by unfold phaseOf; rw [(heard1 x _ hx).2.1 rfl]; rfl)
        (fun f => ⟨rfl, rfl, rfl, rfl, rfl, rfl, rfl, rfl, fun _ => rfl⟩) (fun _ => rfl) rfl
        (fun f => by simp [isCommitted]) (fun f => by simp [isRolledBack, Nat.add_comm]) (fun _ => ⟨rfl, rfl⟩)
  | committed c e =>
    show Base (committed c e _) ∧ AllGo (committed c e _)
    unfold committed
    split
    · exact two _ (same_emit rfl)
    · next hne =>
      cases ht : take c (· == .commit) (emit (.committed c e) s) with
      | none => exact two _ (same_emit rfl)
      | some r =>
        obtain ⟨x, s'⟩ := r
        obtain ⟨a, b, hs, hs', hc, hx⟩ := take_some ht
        exact ended_go (k := fun f => { f with commits := f.commits + 1 }) hi hb ha rfl rfl rfl ht
          (by unfold phaseOf; rw [(heard1 x _ hx).2.2 rfl]; cases e <;> first | rfl | exact absurd rfl hne)
          (fun f => ⟨rfl, rfl, rfl, rfl, rfl, rfl, rfl, rfl, fun _ => rfl⟩) (fun _ => rfl) rfl
          (fun f => by simp [isCommitted, Nat.add_comm]) (fun f => by simp [isRolledBack]) (fun _ => ⟨rfl, rfl⟩)

theorem allProper_snoc (es : List Event) (e : Event) : ∀ s, allProper s (es ++ [e]) = true →
    allProper s es = true ∧ proper (es.foldl step s).log e = true := by
  induction es with
  | nil => intro s h; simpa [allProper] using h
  | cons x es ih =>
    intro s h
    simp only [List.cons_append, allProper, Bool.and_eq_true] at h ⊢
    obtain ⟨h1, h2⟩ := ih _ h.2
    exact ⟨⟨h.1, h1⟩, h2⟩

theorem run_go (es : List Event) (h : allProper {} es = true) : Base (run es) ∧ AllGo (run es) := by
  induction es using Casual.snocInd with
  | nil =>
    refine ⟨⟨?_, ?_, ?_, ?_, ?_⟩, ?_⟩
    · intro _ _ _ _ _ h; cases h
    · intro _ h; cases h
    · intro _ h; cases h
    · intro _ h; cases h
    · intro _ h; cases h
    · intro _ h; cases h
  | snoc es e ih =>
    obtain ⟨h1, h2⟩ := allProper_snoc es e _ h
    obtain ⟨i1, i2⟩ := ih h1
    rw [run_step]
    exact apply_go e (inv_run es) i1 i2 h2

theorem lost_zero {l : List Obs} (h : ∀ o ∈ l, lost? o = false) (f : Nat) : lostOf f l = 0 := by
  induction l with
  | nil => rfl
  | cons o l ih =>
    have h1 := ih fun o ho => h o (List.mem_cons_of_mem _ ho)
    have h2 := h o (List.mem_cons_self ..)
    unfold lostOf at h1 ⊢
    rw [tally, h1]
    cases o <;> first | (cases h2; done) | rfl | (simp only [heard]; cases walk _ l <;> rfl)

/-- The queue manager is looking for queue `n` for forward `f`, has not answered, and has not been told to give it up. -/
def LookingFor (f n : Nat) (l : List Obs) : Prop :=
  ∃ c, .askQueue f c n ∈ l ∧ (∀ n q p r, .queueAt c n q p r ∉ l) ∧ .queueDropped c false ∉ l ∧ .dropQueue c ∉ l

/-- C117, as far as it holds: all other processes do what they should, and the forward has no queue to enqueue to, or no enqueue
has failed. Then, while it is enabled and there is no shutdown, as many messages are on their way as instances are configured; or the
queue manager is looking for one of its queues. -/
theorem forward_keeps_going_partial (es : List Event) (hp : allProper {} es = true) (f : Nat) (x : Conf)
    (hx : confOf f (run es).log = some x) (he : x.enabled = true) (hd : isDown (run es).log = false)
    (hF : x.target.dest = none ∨ ∀ c, .acked c false ∉ (run es).log) :
    instancesOf f (run es).log ≤ inFlight f (run es).log ∨
      ∃ n, (n = x.source ∨ x.target.dest = some n) ∧ LookingFor f n (run es).log := by
  obtain ⟨hb, ha⟩ := run_go es hp
  have h := inv_run es
  obtain ⟨hlt, _⟩ := h.F.once f x (confOf_mem hx)
  obtain ⟨g, hg, rfl⟩ := fwd_of_lt h hlt
  obtain ⟨y, hy, hm⟩ := h.F.conf g hg
  rw [hx] at hy
  cases hy
  rw [h.F.inst g hg]
  by_cases hc : g.configured = 0
  · left; omega
  have hFg : Fine g (run es) := by
    rcases hF with hF | hF
    · left
      have := hm.2.2.2.1
      rw [hF] at this
      cases hgd : g.dest with
      | none => rfl
      | some d => rw [hgd] at this; cases this
    · exact .inr hF
  have hwant : ∀ n, Wanted g.id n (run es) → LookingFor g.id n (run es).log := by
    intro n ⟨c, h1, h2, h3⟩
    obtain ⟨k1, k2⟩ := hb.open_ _ h1
    exact ⟨c, h2, k1, k2, h3⟩
  have hfull : g.running = inFlight g.id (run es).log := by
    rw [h.R.run g hg, inFlight_eq h, lost_zero hb.lost]; rfl
  rcases ha g hg (hm.2.2.2.2.2.trans he) (by omega) (h.down.trans hd) hFg with ⟨_, h2⟩ | ⟨h1, h2, n, hn, h3⟩
  · left; omega
  · refine .inr ⟨n, ?_, hwant n h3⟩
    rw [hm.2.2.1, hm.2.2.2.1] at hn
    exact hn

/-- Without a reply queue; the queue is not found yet, it is found, and a message is on its way. -/
def plainService : Conf := { alias := 1, source := 10, target := .service 7 none, instances := 2 }

example : allProper {} [.update [plainService] [], .queueAt 0 10 (some 5) (some 100) false, .got 1 (some 42)] = true ∧
    allProper {} served = true ∧ (∀ o ∈ (run served).log, ∀ c, o ≠ .acked c false) ∧
    inFlight 0 (run [.update [plainService] [], .queueAt 0 10 (some 5) (some 100) false, .got 1 (some 42)]).log = 2 ∧
    inFlight 0 (run [.update [plainService] []]).log = 0 := by
  refine ⟨by decide +kernel, by decide +kernel, ?_, by decide +kernel, by decide +kernel⟩
  intro o ho c e
  subst e
  revert ho
  have : ((run served).log.any fun o => match o with | .acked _ false => true | _ => false) = false := by decide +kernel
  intro ho
  rw [List.any_eq_false] at this
  exact this _ ho rfl

end Casual.Forward
