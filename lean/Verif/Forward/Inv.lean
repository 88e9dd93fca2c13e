import Verif.Forward.Spec
import Verif.Util
/-! Invariants of the forward: the state of the model follows from the log. -/
namespace Casual.Forward

/-- The phase of a flow. -/
def phaseOf (x : Flow) : Phase :=
  match x.stage with
  | .dequeue => .asked x.id x.trid
  | .lookup m => .looking x.id x.trid m
  | .discard => .dropping x.id x.trid
  | .call _ => .calling x.id x.trid
  | .enqueue => .storing x.id x.trid
  | .commit => .committing x.id x.trid
  | .rollback => .rolling x.id x.trid

theorem waiting_phaseOf (x : Flow) : waiting (phaseOf x) = true := by
  unfold phaseOf; cases x.stage <;> rfl

/-- A flow with this stage belongs to a forward to a service. -/
def svcStage : Stage → Bool
  | .lookup _ | .discard | .call _ => true
  | _ => false

def cnt (i : Nat) (xs : List Flow) : Nat := (xs.filter fun x => x.id == i).length

/-- The forward is as it was configured. -/
def Match (f : Fwd) (x : Conf) : Prop :=
  f.alias = x.alias ∧ f.service = x.target.svc ∧ f.source.name = x.source ∧
  f.dest.map (·.name) = x.target.dest ∧ f.delayed = x.delayed ∧ f.enabled = x.enabled

/-- The queue manager has said where the source queue is. -/
def Told (s : Source) (log : List Obs) : Prop := s.ok = true → ∃ c, .queueAt c s.name s.id s.process false ∈ log

theorem Told.mono {s : Source} {l l' : List Obs} (h : Told s l) (hl : ∀ o ∈ l, o ∈ l') : Told s l' := fun hs => by
  obtain ⟨c, hc⟩ := h hs
  exact ⟨c, hl _ hc⟩

structure InvF (fwds : List Fwd) (log : List Obs) : Prop where
  ids : fwds.map (·.id) = List.range fwds.length
  conf : ∀ f ∈ fwds, ∃ x, confOf f.id log = some x ∧ Match f x
  inst : ∀ f ∈ fwds, instancesOf f.id log = f.configured
  once : ∀ i x, .created i x ∈ log → i < fwds.length ∧ confOf i log = some x
  src : ∀ f ∈ fwds, Told f.source log

structure InvW (flows : List Flow) (fresh : Nat) (log : List Obs) : Prop where
  nodup : (flows.map (·.corr)).Nodup
  lt : ∀ x ∈ flows, x.corr < fresh
  here : ∀ x ∈ flows, walk x.corr log = phaseOf x
  gone : ∀ c, (∀ x ∈ flows, x.corr ≠ c) → walk c log = .idle ∨ walk c log = .over
  new : ∀ c, fresh ≤ c → walk c log = .idle

structure InvR (fwds : List Fwd) (flows : List Flow) (log : List Obs) : Prop where
  ex : ∀ x ∈ flows, ∃ f ∈ fwds, f.id = x.id ∧ (svcStage x.stage = true → f.service.isSome = true)
  run : ∀ f ∈ fwds, f.running = cnt f.id flows + lostOf f.id log
  com : ∀ f ∈ fwds, f.commits = commitsOf f.id log
  rol : ∀ f ∈ fwds, f.rollbacks = rollbacksOf f.id log
  new : ∀ i, (∀ f ∈ fwds, f.id ≠ i) → lostOf i log = 0 ∧ commitsOf i log = 0 ∧ rollbacksOf i log = 0

structure InvL (fwds : List Fwd) (lookups : List Look) (fresh : Nat) : Prop where
  nodup : (lookups.map (·.corr)).Nodup
  lt : ∀ l ∈ lookups, l.corr < fresh
  ex : ∀ l ∈ lookups, ∃ f ∈ fwds, f.id = l.id

structure Inv (s : State) : Prop where
  alive : s.dead = false
  down : s.down = isDown s.log
  F : InvF s.fwds s.log
  W : InvW s.flows s.fresh s.log
  R : InvR s.fwds s.flows s.log
  L : InvL s.fwds s.lookups s.fresh

/-! ### Words of the log -/

/-- Not about where a message is. -/
def silent (o : Obs) : Bool := (heard o).isNone && (said o).isNone

theorem walk_skip {c : Nat} {o : Obs} {l : List Obs} (h : heard o ≠ some c) (h' : said o ≠ some c) :
    walk c (o :: l) = walk c l := by
  simp only [walk, if_neg h, if_neg h']

theorem walk_silent {c : Nat} {o : Obs} {l : List Obs} (h : silent o = true) : walk c (o :: l) = walk c l := by
  simp only [silent, Bool.and_eq_true, Option.isNone_iff_eq_none] at h
  exact walk_skip (by rw [h.1]; simp) (by rw [h.2]; simp)

/-- Says nothing of forwards or of shutdown. -/
def plain : Obs → Bool
  | .created _ _ | .instances _ _ | .shutdown => false
  | _ => true

theorem confOf_plain {f : Nat} {o : Obs} {l : List Obs} (h : plain o = true) : confOf f (o :: l) = confOf f l := by
  cases o <;> first | rfl | (cases h; done)

theorem instancesOf_plain {f : Nat} {o : Obs} {l : List Obs} (h : plain o = true) :
    instancesOf f (o :: l) = instancesOf f l := by
  cases o <;> first | rfl | (cases h; done)

theorem isDown_plain {o : Obs} {l : List Obs} (h : plain o = true) : isDown (o :: l) = isDown l := by
  cases o <;> first | rfl | (cases h; done)

theorem isDown_cons {o : Obs} {l : List Obs} (h : o ≠ .shutdown) : isDown (o :: l) = isDown l := by
  cases o <;> first | rfl | exact absurd rfl h

theorem InvF.plain {fwds : List Fwd} {l : List Obs} {o : Obs} (h : InvF fwds l) (hp : plain o = true) :
    InvF fwds (o :: l) :=
  ⟨h.ids, by intro f hf; rw [confOf_plain hp]; exact h.conf f hf,
   by intro f hf; rw [instancesOf_plain hp]; exact h.inst f hf,
   by
    intro i x hx
    rw [confOf_plain hp]
    rcases List.mem_cons.mp hx with rfl | hx
    · cases hp
    · exact h.once i x hx,
   fun f hf => (h.src f hf).mono fun _ => List.mem_cons_of_mem _⟩

theorem InvW.silent {flows fresh} {l : List Obs} {o : Obs} (h : InvW flows fresh l) (hp : silent o = true) :
    InvW flows fresh (o :: l) :=
  ⟨h.nodup, h.lt, by intro x hx; rw [walk_silent hp]; exact h.here x hx,
   by intro c hc; rw [walk_silent hp]; exact h.gone c hc,
   by intro c hc; rw [walk_silent hp]; exact h.new c hc⟩

/-- Nothing is counted. -/
def Still (l l' : List Obs) : Prop :=
  ∀ f, lostOf f l' = lostOf f l ∧ commitsOf f l' = commitsOf f l ∧ rollbacksOf f l' = rollbacksOf f l

theorem Still.trans {a b c : List Obs} (h : Still a b) (h' : Still b c) : Still a c := fun f =>
  ⟨(h' f).1.trans (h f).1, (h' f).2.1.trans (h f).2.1, (h' f).2.2.trans (h f).2.2⟩

theorem still_unheard {o : Obs} {l : List Obs} (h : heard o = none) : Still l (o :: l) := by
  intro f
  simp [lostOf, commitsOf, rollbacksOf, tally, h]

theorem still_silent {o : Obs} {l : List Obs} (h : silent o = true) : Still l (o :: l) := by
  simp only [silent, Bool.and_eq_true, Option.isNone_iff_eq_none] at h
  exact still_unheard h.1

theorem InvR.still {fwds : List Fwd} {flows : List Flow} {l l' : List Obs} (h : InvR fwds flows l) (hs : Still l l') : InvR fwds flows l' :=
  ⟨h.ex, fun f hf => by rw [(hs f.id).1]; exact h.run f hf, fun f hf => by rw [(hs f.id).2.1]; exact h.com f hf,
   fun f hf => by rw [(hs f.id).2.2]; exact h.rol f hf,
   fun i hi => by rw [(hs i).1, (hs i).2.1, (hs i).2.2]; exact h.new i hi⟩

/-- Something is counted. -/
def counts : Phase → Obs → Bool
  | .asked _ _, .undelivered _ => true
  | .committing _ _, .committed _ e => e != .prepare
  | .rolling _ _, .rolledBack _ _ => true
  | _, _ => false

theorem counts_over {ph : Phase} {o : Obs} (l : List Obs) (h : counts ph o = true) : hear l ph o = .over := by
  cases ph <;> cases o <;> first | (cases h; done) | rfl | skip
  next e => cases e <;> first | (cases h; done) | rfl

theorem tally_none {k : Phase → Obs → Bool} {o : Obs} {c : Nat} {l : List Obs} (ho : heard o = some c)
    (h : k (walk c l) o = false) : tally k (o :: l) = tally k l := by
  simp [tally, ho, h]

theorem counts_iff (f : Nat) {ph : Phase} {o : Obs} : counts ph o = false →
    (match ph, o with | .asked g _, .undelivered _ => g == f | _, _ => false) = false ∧
    (match ph, o with | .committing g _, .committed _ e => g == f && e != .prepare | _, _ => false) = false ∧
    (match ph, o with | .rolling g _, .rolledBack _ _ => g == f | _, _ => false) = false := by
  intro h
  cases ph with
  | asked g t => cases o <;> first | exact ⟨rfl, rfl, rfl⟩ | (cases h; done)
  | committing g t =>
    cases o <;> first | exact ⟨rfl, rfl, rfl⟩ | skip
    next e => have h : (e != .prepare) = false := h; refine ⟨rfl, ?_, rfl⟩; simp [h]
  | rolling g t => cases o <;> first | exact ⟨rfl, rfl, rfl⟩ | (cases h; done)
  | _ => exact ⟨rfl, rfl, rfl⟩

theorem still_heard {o : Obs} {c : Nat} {l : List Obs} (ho : heard o = some c) (h : counts (walk c l) o = false) :
    Still l (o :: l) := by
  intro f
  obtain ⟨h1, h2, h3⟩ := counts_iff f h
  exact ⟨tally_none ho h1, tally_none ho h2, tally_none ho h3⟩

theorem inv_emit {s : State} {o : Obs} (h : Inv s) (hp : plain o = true) (hs : silent o = true) : Inv (emit o s) :=
  ⟨h.alive, by show s.down = _; rw [emit, isDown_plain hp]; exact h.down, h.F.plain hp, h.W.silent hs, h.R.still (still_silent hs), h.L⟩

theorem inv_emits {α : Type} {g : α → Obs} (hp : ∀ a, plain (g a) = true) (hs : ∀ a, silent (g a) = true)
    (xs : List α) : ∀ {s : State}, Inv s → Inv (xs.foldl (fun s a => emit (g a) s) s) := by
  induction xs with
  | nil => intro s h; exact h
  | cons a xs ih => intro s h; exact ih (inv_emit h (hp a) (hs a))

/-! ### Forwards -/

theorem mem_of_get {s : State} {i : Nat} {f : Fwd} (h : s.get i = some f) : f ∈ s.fwds ∧ f.id = i :=
  ⟨List.mem_of_find?_eq_some h, by have := List.find?_some h; simpa using this⟩

theorem ids_nodup {fwds : List Fwd} (h : fwds.map (·.id) = List.range fwds.length) : (fwds.map (·.id)).Nodup := by
  rw [h]; exact List.nodup_range

theorem get_of_mem {s : State} {f : Fwd} (hn : (s.fwds.map (·.id)).Nodup) (h : f ∈ s.fwds) : s.get f.id = some f := by
  unfold State.get
  cases hx : s.fwds.find? (·.id == f.id) with
  | none => exact absurd (List.find?_eq_none.mp hx f h) (by simp)
  | some g =>
    have h1 := List.mem_of_find?_eq_some hx
    have h2 : g.id = f.id := by have := List.find?_some hx; simpa using this
    rw [eq_of_nodup_map hn h1 h h2]

/-- `g` changes nothing of the configuration. -/
def Kept (g : Fwd → Fwd) : Prop :=
  ∀ f, (g f).id = f.id ∧ (g f).alias = f.alias ∧ (g f).service = f.service ∧ (g f).source.name = f.source.name ∧
    (g f).dest.map (·.name) = f.dest.map (·.name) ∧ (g f).delayed = f.delayed ∧ (g f).enabled = f.enabled ∧
    (g f).configured = f.configured ∧ ((g f).source.ok = true → (g f).source = f.source)

theorem mem_set {s : State} {i : Nat} {g : Fwd → Fwd} {f : Fwd} (h : f ∈ (s.set i g).fwds) :
    ∃ f₀ ∈ s.fwds, f = if f₀.id = i then g f₀ else f₀ := by
  simp only [State.set, List.mem_map] at h
  obtain ⟨f₀, h1, h2⟩ := h
  exact ⟨f₀, h1, h2.symm⟩

theorem set_ids {s : State} {i : Nat} {g : Fwd → Fwd} (hg : ∀ f, f.id = i → (g f).id = f.id) :
    (s.set i g).fwds.map (·.id) = s.fwds.map (·.id) := by
  simp only [State.set, List.map_map]
  apply List.map_congr_left
  intro f _
  show (if f.id = i then g f else f).id = f.id
  split
  · next h => exact hg f h
  · rfl

theorem set_F {s : State} {i : Nat} {g : Fwd → Fwd} {log : List Obs} (h : InvF s.fwds log)
    (hg : ∀ f ∈ s.fwds, f.id = i → (g f).id = f.id ∧ (∀ x, Match f x → Match (g f) x) ∧ (g f).configured = f.configured ∧
      (Told f.source log → Told (g f).source log)) :
    InvF (s.set i g).fwds log := by
  have hi : (s.set i g).fwds.map (·.id) = s.fwds.map (·.id) := by
    simp only [State.set, List.map_map]
    apply List.map_congr_left
    intro f hf
    show (if f.id = i then g f else f).id = f.id
    split
    · next h => exact (hg f hf h).1
    · rfl
  have hl : (s.set i g).fwds.length = s.fwds.length := by simp [State.set]
  refine ⟨by rw [hi, hl]; exact h.ids, ?_, ?_, by rw [hl]; exact h.once, ?_⟩
  · intro f hf
    obtain ⟨f₀, h0, rfl⟩ := mem_set hf
    obtain ⟨x, hx1, hx2⟩ := h.conf f₀ h0
    split
    · next hi =>
      obtain ⟨h1, h2, _⟩ := hg f₀ h0 hi
      exact ⟨x, by rw [h1]; exact hx1, h2 x hx2⟩
    · exact ⟨x, hx1, hx2⟩
  · intro f hf
    obtain ⟨f₀, h0, rfl⟩ := mem_set hf
    split
    · next hi =>
      obtain ⟨h1, _, h3, _⟩ := hg f₀ h0 hi
      rw [h1, h3]; exact h.inst f₀ h0
    · exact h.inst f₀ h0
  · intro f hf
    obtain ⟨f₀, h0, rfl⟩ := mem_set hf
    split
    · next hi => exact (hg f₀ h0 hi).2.2.2 (h.src f₀ h0)
    · exact h.src f₀ h0

theorem Kept.match {g : Fwd → Fwd} (h : Kept g) (f : Fwd) (x : Conf) (hm : Match f x) : Match (g f) x := by
  obtain ⟨_, h2, h3, h4, h5, h6, h7, _⟩ := h f
  obtain ⟨m1, m2, m3, m4, m5, m6⟩ := hm
  exact ⟨h2.trans m1, h3.trans m2, h4.trans m3, h5.trans m4, h6.trans m5, h7.trans m6⟩

theorem set_F_kept {s : State} {i : Nat} {g : Fwd → Fwd} {log : List Obs} (h : InvF s.fwds log) (hg : Kept g) :
    InvF (s.set i g).fwds log :=
  set_F h fun f _ _ => ⟨(hg f).1, hg.match f, (hg f).2.2.2.2.2.2.2.1, fun h hs => by
    have e := (hg f).2.2.2.2.2.2.2.2 hs
    rw [e] at hs ⊢
    exact h hs⟩

theorem set_L {s : State} {i : Nat} {g : Fwd → Fwd} {ls fresh} (h : InvL s.fwds ls fresh)
    (hg : ∀ f ∈ s.fwds, f.id = i → (g f).id = f.id) : InvL (s.set i g).fwds ls fresh := by
  refine ⟨h.nodup, h.lt, ?_⟩
  intro l hl
  obtain ⟨f, hf, he⟩ := h.ex l hl
  refine ⟨if f.id = i then g f else f, ?_, ?_⟩
  · simp only [State.set, List.mem_map]; exact ⟨f, hf, rfl⟩
  · split
    · next hi => rw [hg f hf hi]; exact he
    · exact he

theorem set_R {s : State} {i : Nat} {g : Fwd → Fwd} {flows log} (h : InvR s.fwds flows log)
    (hg : ∀ f ∈ s.fwds, f.id = i → (g f).id = f.id ∧ (g f).service = f.service ∧ (g f).running = f.running ∧
      (g f).commits = f.commits ∧ (g f).rollbacks = f.rollbacks) :
    InvR (s.set i g).fwds flows log := by
  refine ⟨?_, ?_, ?_, ?_, ?_⟩
  · intro x hx
    obtain ⟨f, hf, he, hs⟩ := h.ex x hx
    refine ⟨if f.id = i then g f else f, ?_, ?_, ?_⟩
    · simp only [State.set, List.mem_map]; exact ⟨f, hf, rfl⟩
    · split
      · next hi => rw [(hg f hf hi).1]; exact he
      · exact he
    · split
      · next hi => rw [(hg f hf hi).2.1]; exact hs
      · exact hs
  rotate_right
  · intro j hj
    apply h.new
    intro f hf e
    refine hj (if f.id = i then g f else f) (by simp only [State.set, List.mem_map]; exact ⟨f, hf, rfl⟩) ?_
    split
    · next hi => rw [(hg f hf hi).1]; exact e
    · exact e
  all_goals
    intro f hf
    obtain ⟨f₀, h0, rfl⟩ := mem_set hf
    split
    · next hi =>
      obtain ⟨h1, _, h3, h4, h5⟩ := hg f₀ h0 hi
      first | (rw [h1, h3]; exact h.run f₀ h0) | (rw [h1, h4]; exact h.com f₀ h0) | (rw [h1, h5]; exact h.rol f₀ h0)
    · first | exact h.run f₀ h0 | exact h.com f₀ h0 | exact h.rol f₀ h0

theorem inv_set {s : State} {i : Nat} {g : Fwd → Fwd} (h : Inv s) (hg : Kept g)
    (hr : ∀ f, (g f).running = f.running ∧ (g f).commits = f.commits ∧ (g f).rollbacks = f.rollbacks) : Inv (s.set i g) :=
  ⟨h.alive, h.down, set_F_kept h.F hg, h.W,
   set_R h.R fun f _ _ => ⟨(hg f).1, (hg f).2.2.1, hr f⟩,
   set_L h.L fun f _ _ => (hg f).1⟩

/-! ### Asking for queues -/

theorem inv_ask {s : State} {i name : Nat} (h : Inv s) (hi : ∃ f ∈ s.fwds, f.id = i) : Inv (ask i name s) := by
  refine ⟨h.alive, ?_, h.F.plain rfl, ?_, h.R.still (still_silent rfl), ?_⟩
  · show s.down = _; rw [ask, isDown_plain rfl]; exact h.down
  · have := h.W.silent (o := .askQueue i s.fresh name) rfl
    exact ⟨this.nodup, fun x hx => Nat.lt_succ_of_lt (this.lt x hx), this.here, this.gone,
      fun c hc => this.new c (Nat.le_of_succ_le hc)⟩
  · refine ⟨?_, ?_, ?_⟩
    · simp only [ask, List.map_append, List.map_cons, List.map_nil]
      rw [List.nodup_append]
      refine ⟨h.L.nodup, by simp, ?_⟩
      intro a ha b hb e
      simp only [List.mem_singleton] at hb
      subst hb
      obtain ⟨l, hl, he⟩ := List.mem_map.mp ha
      have := h.L.lt l hl
      rw [he, e] at this
      exact Nat.lt_irrefl _ this
    · intro l hl
      simp only [ask, List.mem_append, List.mem_singleton] at hl
      rcases hl with hl | rfl
      · exact Nat.lt_succ_of_lt (h.L.lt l hl)
      · exact Nat.lt_succ_self _
    · intro l hl
      simp only [ask, List.mem_append, List.mem_singleton] at hl
      rcases hl with hl | rfl
      · exact h.L.ex l hl
      · exact hi

theorem ask_fwds {i name : Nat} {s : State} : (ask i name s).fwds = s.fwds := rfl

theorem askQueues_fwds (f : Fwd) (s : State) : (askQueues f s).fwds = s.fwds := by
  unfold askQueues; cases f.dest <;> rfl

theorem inv_askQueues {s : State} {f : Fwd} (h : Inv s) (hi : ∃ f' ∈ s.fwds, f'.id = f.id) : Inv (askQueues f s) := by
  unfold askQueues
  cases f.dest with
  | none => exact inv_ask h hi
  | some d => exact inv_ask (inv_ask h hi) hi

/-! ### Flows -/

theorem cnt_append (i : Nat) (a b : List Flow) : cnt i (a ++ b) = cnt i a + cnt i b := by
  simp [cnt]

theorem inv_startOne {s : State} {f : Fwd} (h : Inv s) (hi : ∃ f' ∈ s.fwds, f'.id = f.id) : Inv (startOne f s) := by
  have hk : Kept fun f => { f with running := f.running + 1 } := fun f => ⟨rfl, rfl, rfl, rfl, rfl, rfl, rfl, rfl, fun _ => rfl⟩
  refine ⟨h.alive, ?_, ?_, ?_, ?_, ?_⟩
  · show s.down = _
    rw [startOne, isDown_plain rfl]
    exact h.down
  · exact (set_F_kept h.F hk).plain rfl
  · have hf : ∀ c, c ≠ s.fresh → walk c ((startOne f s).log) = walk c s.log := by
      intro c hc
      exact walk_skip (by simp [heard]) (by simp only [said]; intro e; exact hc (Option.some.inj e).symm)
    have hn : walk s.fresh (startOne f s).log = .asked f.id ⟨s.fresh⟩ := by
      simp only [startOne, State.set, walk, heard, said, if_true]
      rw [h.W.new s.fresh (Nat.le_refl _)]
      rfl
    refine ⟨?_, ?_, ?_, ?_, ?_⟩
    · simp only [startOne, State.set, List.map_append, List.map_cons, List.map_nil]
      rw [List.nodup_append]
      refine ⟨h.W.nodup, by simp, ?_⟩
      intro a ha b hb e
      simp only [List.mem_singleton] at hb
      subst hb
      obtain ⟨l, hl, he⟩ := List.mem_map.mp ha
      have := h.W.lt l hl
      rw [he, e] at this
      exact Nat.lt_irrefl _ this
    · intro l hl
      simp only [startOne, State.set, List.mem_append, List.mem_singleton] at hl
      rcases hl with hl | rfl
      · exact Nat.lt_succ_of_lt (h.W.lt l hl)
      · exact Nat.lt_succ_self _
    · intro x hx
      simp only [startOne, State.set, List.mem_append, List.mem_singleton] at hx
      rcases hx with hx | rfl
      · rw [hf _ (Nat.ne_of_lt (h.W.lt x hx))]; exact h.W.here x hx
      · rw [hn]; rfl
    · intro c hc
      have hne : c ≠ s.fresh := by
        intro e
        exact hc ⟨f.id, s.fresh, ⟨s.fresh⟩, .dequeue⟩ (by simp [startOne, State.set]) e.symm
      rw [hf c hne]
      exact h.W.gone c fun x hx => hc x (by simp only [startOne, State.set, List.mem_append]; exact Or.inl hx)
    · intro c hc
      have : s.fresh + 1 ≤ c := hc
      rw [hf c (by omega)]
      exact h.W.new c (by omega)
  · have hR := h.R.still (still_unheard (o := .dequeue f.id s.fresh ⟨s.fresh⟩ f.source.process f.source.id) rfl)
    refine ⟨?_, ?_, ?_, ?_, ?_⟩
    · intro x hx
      have hx' : x ∈ s.flows ∨ x = ⟨f.id, s.fresh, ⟨s.fresh⟩, .dequeue⟩ := by
        simpa [startOne, State.set] using hx
      rcases hx' with hx' | rfl
      · obtain ⟨f', hf', he, hsv⟩ := hR.ex x hx'
        refine ⟨if f'.id = f.id then { f' with running := f'.running + 1 } else f', ?_, ?_, ?_⟩
        · simp only [startOne, State.set, List.mem_map]; exact ⟨f', hf', rfl⟩
        · split <;> exact he
        · split <;> exact hsv
      · obtain ⟨f', hf', he⟩ := hi
        refine ⟨if f'.id = f.id then { f' with running := f'.running + 1 } else f', ?_, ?_, ?_⟩
        · simp only [startOne, State.set, List.mem_map]; exact ⟨f', hf', rfl⟩
        · rw [if_pos he]; exact he
        · intro hh; cases hh
    · intro f' hf'
      obtain ⟨f₀, h0, rfl⟩ := mem_set (s := s) hf'
      have := hR.run f₀ h0
      show _ = cnt _ (s.flows ++ [_]) + lostOf _ (.dequeue f.id s.fresh ⟨s.fresh⟩ f.source.process f.source.id :: s.log)
      rw [cnt_append]
      by_cases hc : f₀.id = f.id
      · rw [if_pos hc]
        have h1 : cnt f₀.id [⟨f.id, s.fresh, ⟨s.fresh⟩, .dequeue⟩] = 1 := by simp [cnt, hc]
        show f₀.running + 1 = cnt f₀.id s.flows + cnt f₀.id [⟨f.id, s.fresh, ⟨s.fresh⟩, .dequeue⟩] + _
        rw [h1, this]
        show _ = _ + lostOf f₀.id _
        omega
      · rw [if_neg hc]
        have h1 : cnt f₀.id [⟨f.id, s.fresh, ⟨s.fresh⟩, .dequeue⟩] = 0 := by
          have : (f.id == f₀.id) = false := by simp; omega
          simp [cnt, this]
        show f₀.running = cnt f₀.id s.flows + cnt f₀.id [⟨f.id, s.fresh, ⟨s.fresh⟩, .dequeue⟩] + _
        rw [h1, this]; omega
    · intro f' hf'
      obtain ⟨f₀, h0, rfl⟩ := mem_set (s := s) hf'
      have := hR.com f₀ h0
      split <;> exact this
    · intro f' hf'
      obtain ⟨f₀, h0, rfl⟩ := mem_set (s := s) hf'
      have := hR.rol f₀ h0
      split <;> exact this
    · intro j hj
      apply hR.new
      intro g hg e
      refine hj (if g.id = f.id then { g with running := g.running + 1 } else g) ?_ ?_
      · simp only [startOne, State.set, List.mem_map]; exact ⟨g, hg, rfl⟩
      · split <;> exact e
  · have := set_L (s := s) (i := f.id) (g := fun f => { f with running := f.running + 1 }) h.L fun _ _ _ => rfl
    exact ⟨this.nodup, fun l hl => Nat.lt_succ_of_lt (this.lt l hl), this.ex⟩

theorem startOne_ids (f : Fwd) (s : State) : (startOne f s).fwds.map (·.id) = s.fwds.map (·.id) :=
  set_ids (s := s) fun _ _ => rfl

theorem ex_ids {s s' : State} {i : Nat} (hs : s'.fwds.map (·.id) = s.fwds.map (·.id)) :
    (∃ f ∈ s'.fwds, f.id = i) ↔ ∃ f ∈ s.fwds, f.id = i := by
  have key : ∀ t : State, (∃ f ∈ t.fwds, f.id = i) ↔ i ∈ t.fwds.map (·.id) := by
    intro t; simp [List.mem_map]
  rw [key, key, hs]

theorem inv_startN {f : Fwd} (n : Nat) : ∀ {s : State}, Inv s → (∃ f' ∈ s.fwds, f'.id = f.id) → Inv (startN f n s) := by
  induction n with
  | zero => intro s h _; exact h
  | succ n ih =>
    intro s h hi
    exact ih (inv_startOne h hi) ((ex_ids (startOne_ids f s)).mpr hi)

theorem inv_start {s : State} {f : Fwd} (h : Inv s) (hi : ∃ f' ∈ s.fwds, f'.id = f.id) : Inv (start f s) := by
  unfold start; split
  · exact inv_startN _ h hi
  · exact h

theorem inv_next {s : State} {i : Nat} (h : Inv s) (hi : ∃ f ∈ s.fwds, f.id = i) : Inv (next i s) := by
  unfold next
  cases hg : s.get i with
  | none =>
    obtain ⟨f, hf, rfl⟩ := hi
    rw [get_of_mem (ids_nodup h.F.ids) hf] at hg
    cases hg
  | some f =>
    obtain ⟨hf, he⟩ := mem_of_get hg
    dsimp only
    split
    · exact inv_start h ⟨f, hf, rfl⟩
    · split
      · exact h
      · exact inv_askQueues h ⟨f, hf, rfl⟩

theorem take_some {c : Nat} {p : Stage → Bool} {s : State} {x : Flow} {s' : State} (h : take c p s = some (x, s')) :
    ∃ a b, s.flows = a ++ x :: b ∧ s' = { s with flows := a ++ b } ∧ x.corr = c ∧ p x.stage = true := by
  unfold take at h
  cases hf : s.flows.find? (fun x => x.corr == c && p x.stage) with
  | none => rw [hf] at h; cases h
  | some y =>
    rw [hf] at h
    simp only [Option.some.injEq, Prod.mk.injEq] at h
    obtain ⟨rfl, h2⟩ := h
    obtain ⟨hp, a, b, hs, hn⟩ := List.find?_eq_some_iff_append.mp hf
    simp only [Bool.and_eq_true, beq_iff_eq] at hp
    refine ⟨a, b, hs, ?_, hp.1, hp.2⟩
    rw [← h2, hs, List.eraseP_append_right _ (by intro y hy; have := hn y hy; simp at this; simp; intro e; exact this.resolve_left (fun h => h e))]
    rw [List.eraseP_cons_of_pos (by simp [hp.1, hp.2])]

theorem take_none {c : Nat} {p : Stage → Bool} {s : State} (h : take c p s = none) :
    ∀ x ∈ s.flows, x.corr = c → p x.stage = false := by
  unfold take at h
  cases hf : s.flows.find? (fun x => x.corr == c && p x.stage) with
  | some y => rw [hf] at h; cases h
  | none =>
    intro x hx hc
    have := List.find?_eq_none.mp hf x hx
    simpa [hc] using this

/-- A flow is somewhere else now. -/
theorem W_move {a b : List Flow} {x : Flow} {g : Stage} {fresh : Nat} {l l' : List Obs}
    (h : InvW (a ++ x :: b) fresh l) (ho : ∀ c, c ≠ x.corr → walk c l' = walk c l)
    (hx : walk x.corr l' = phaseOf { x with stage := g }) : InvW (a ++ b ++ [{ x with stage := g }]) fresh l' := by
  have hp : List.Perm ((a ++ b ++ [{ x with stage := g }]).map Flow.corr) ((a ++ x :: b).map Flow.corr) := by
    simp only [List.map_append, List.map_cons, List.map_nil, List.append_assoc]
    exact List.Perm.append_left _ (by exact List.perm_append_comm)
  have hne : ∀ y, y ∈ a ++ b → y.corr ≠ x.corr := by
    intro y hy e
    have hn := h.nodup
    simp only [List.map_append, List.map_cons] at hn
    rw [List.nodup_append] at hn
    obtain ⟨_, h2, h3⟩ := hn
    rw [List.nodup_cons] at h2
    rcases List.mem_append.mp hy with hy | hy
    · exact h3 _ (List.mem_map.mpr ⟨y, hy, rfl⟩) _ (List.mem_cons_self ..) e
    · exact h2.1 (List.mem_map.mpr ⟨y, hy, e⟩)
  have hm : ∀ y, y ∈ a ++ b → y ∈ a ++ x :: b := by
    intro y hy
    rcases List.mem_append.mp hy with hy | hy
    · exact List.mem_append_left _ hy
    · exact List.mem_append_right _ (List.mem_cons_of_mem _ hy)
  have hmem : ∀ y, y ∈ a ++ b ++ [{ x with stage := g }] → y ∈ a ++ b ∨ y = { x with stage := g } := by
    intro y hy
    rcases List.mem_append.mp hy with hy | hy
    · exact Or.inl hy
    · exact Or.inr (List.mem_singleton.mp hy)
  have hxm : x ∈ a ++ x :: b := List.mem_append_right _ (List.mem_cons_self ..)
  refine ⟨hp.nodup_iff.mpr h.nodup, ?_, ?_, ?_, ?_⟩
  · intro y hy
    rcases hmem y hy with hy | rfl
    · exact h.lt y (hm y hy)
    · exact h.lt x hxm
  · intro y hy
    rcases hmem y hy with hy | rfl
    · rw [ho _ (hne y hy)]; exact h.here y (hm y hy)
    · exact hx
  · intro c hc
    have hcx : c ≠ x.corr := fun e => hc { x with stage := g } (List.mem_append_right _ (List.mem_singleton.mpr rfl)) e.symm
    rw [ho c hcx]
    apply h.gone c
    intro y hy
    rcases List.mem_append.mp hy with hy | hy
    · exact hc y (List.mem_append_left _ (List.mem_append_left _ hy))
    · rcases List.mem_cons.mp hy with rfl | hy
      · exact fun e => hcx e.symm
      · exact hc y (List.mem_append_left _ (List.mem_append_right _ hy))
  · intro c hc
    have : x.corr < fresh := h.lt x hxm
    rw [ho c (by omega)]
    exact h.new c hc

/-- A flow is over. -/
theorem W_drop {a b : List Flow} {x : Flow} {fresh : Nat} {l l' : List Obs}
    (h : InvW (a ++ x :: b) fresh l) (ho : ∀ c, c ≠ x.corr → walk c l' = walk c l)
    (hx : walk x.corr l' = .over) : InvW (a ++ b) fresh l' := by
  have hn := h.nodup
  simp only [List.map_append, List.map_cons] at hn
  have hne : ∀ y, y ∈ a ++ b → y.corr ≠ x.corr := by
    intro y hy e
    rw [List.nodup_append] at hn
    obtain ⟨_, h2, h3⟩ := hn
    rw [List.nodup_cons] at h2
    rcases List.mem_append.mp hy with hy | hy
    · exact h3 _ (List.mem_map.mpr ⟨y, hy, rfl⟩) _ (List.mem_cons_self ..) e
    · exact h2.1 (List.mem_map.mpr ⟨y, hy, e⟩)
  have hm : ∀ y, y ∈ a ++ b → y ∈ a ++ x :: b := by
    intro y hy
    rcases List.mem_append.mp hy with hy | hy
    · exact List.mem_append_left _ hy
    · exact List.mem_append_right _ (List.mem_cons_of_mem _ hy)
  have hxm : x ∈ a ++ x :: b := List.mem_append_right _ (List.mem_cons_self ..)
  refine ⟨?_, fun y hy => h.lt y (hm y hy), ?_, ?_, ?_⟩
  · rw [List.map_append]
    exact List.Nodup.sublist (List.Sublist.append_left (List.sublist_cons_self ..) _) hn
  · intro y hy
    rw [ho _ (hne y hy)]; exact h.here y (hm y hy)
  · intro c hc
    by_cases hcx : c = x.corr
    · subst hcx; exact Or.inr hx
    · rw [ho c hcx]
      apply h.gone c
      intro y hy
      rcases List.mem_append.mp hy with hy | hy
      · exact hc y (List.mem_append_left _ hy)
      · rcases List.mem_cons.mp hy with rfl | hy
        · exact fun e => hcx e.symm
        · exact hc y (List.mem_append_right _ hy)
  · intro c hc
    have : x.corr < fresh := h.lt x hxm
    rw [ho c (by omega)]
    exact h.new c hc

/-- What is heard is not an answer. -/
theorem W_ignore {flows : List Flow} {fresh : Nat} {l : List Obs} {o : Obs} (h : InvW flows fresh l)
    (ho : ∀ c, heard o = some c → (walk c (o :: l) = walk c l)) (hs : said o = none) : InvW flows fresh (o :: l) := by
  have key : ∀ c, walk c (o :: l) = walk c l := by
    intro c
    by_cases hc : heard o = some c
    · exact ho c hc
    · exact walk_skip hc (by rw [hs]; simp)
  exact ⟨h.nodup, h.lt, fun x hx => (key _).trans (h.here x hx), fun c hc => by rw [key]; exact h.gone c hc,
    fun c hc => (key c).trans (h.new c hc)⟩

theorem R_move {fwds : List Fwd} {a b : List Flow} {x : Flow} {g : Stage} {log log' : List Obs} (h : InvR fwds (a ++ x :: b) log) (hl : Still log log')
    (hg : svcStage g = true → ∃ f ∈ fwds, f.id = x.id ∧ f.service.isSome = true) (hn : (fwds.map (·.id)).Nodup) :
    InvR fwds (a ++ b ++ [{ x with stage := g }]) log' := by
  have h := h.still hl
  refine ⟨?_, ?_, h.com, h.rol, h.new⟩
  · intro y hy
    rcases List.mem_append.mp hy with hy | hy
    · apply h.ex
      rcases List.mem_append.mp hy with hy | hy
      · exact List.mem_append_left _ hy
      · exact List.mem_append_right _ (List.mem_cons_of_mem _ hy)
    · obtain rfl := List.mem_singleton.mp hy
      obtain ⟨f, hf, he, _⟩ := h.ex x (List.mem_append_right _ (List.mem_cons_self ..))
      refine ⟨f, hf, he, ?_⟩
      intro hs
      obtain ⟨f', hf', he', hs'⟩ := hg hs
      rw [eq_of_nodup_map hn hf hf' (he.trans he'.symm)]
      exact hs'
  · intro f hf
    have := h.run f hf
    simp only [cnt_append] at this ⊢
    have h2 : cnt f.id (x :: b) = cnt f.id [x] + cnt f.id b := cnt_append f.id [x] b
    have h3 : cnt f.id [{ x with stage := g }] = cnt f.id [x] := by
      simp only [cnt, List.filter_cons]; split <;> rfl
    omega

theorem cnt_pos {i : Nat} {a b : List Flow} {x : Flow} (h : x.id = i) : cnt i (a ++ x :: b) = cnt i (a ++ b) + 1 := by
  simp only [cnt, List.filter_append, List.filter_cons, h, beq_self_eq_true, if_true, List.length_append, List.length_cons]
  omega

theorem cnt_neg {i : Nat} {a b : List Flow} {x : Flow} (h : x.id ≠ i) : cnt i (a ++ x :: b) = cnt i (a ++ b) := by
  simp only [cnt, List.filter_append, List.filter_cons, beq_iff_eq, h, if_false]

end Casual.Forward
