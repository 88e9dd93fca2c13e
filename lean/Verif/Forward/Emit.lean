import Verif.Forward.Log
/-! Who asks for messages, and when. -/
namespace Casual.Forward

theorem length_le_of_subset {α : Type} [DecidableEq α] : ∀ {a b : List α}, a.Nodup → (∀ x ∈ a, x ∈ b) → a.length ≤ b.length
  | [], b, _, _ => Nat.zero_le _
  | x :: a, b, hn, hs => by
    obtain ⟨hx, hn⟩ := List.nodup_cons.mp hn
    have hb := hs x (List.mem_cons_self ..)
    have : a.length ≤ (b.erase x).length := length_le_of_subset hn fun y hy => by
      have hne : y ≠ x := fun e => hx (e ▸ hy)
      exact (List.mem_erase_of_ne hne).mpr (hs y (List.mem_cons_of_mem _ hy))
    rw [List.length_erase_of_mem hb] at this
    have := List.length_pos_of_mem hb
    simp only [List.length_cons]
    omega

theorem mem_askedBy {f c : Nat} {l : List Obs} : c ∈ askedBy f l ↔ ∃ t, Deq c f t l := by
  induction l with
  | nil =>
    constructor
    · intro h; cases h
    · intro ⟨t, p, q, h⟩; cases h
  | cons o l ih =>
    have skip : (∀ g d t p q, o ≠ .dequeue g d t p q) → askedBy f (o :: l) = askedBy f l := by
      intro h
      cases o <;> first | rfl | skip
      exact absurd rfl (h _ _ _ _ _)
    by_cases ho : ∃ g d t p q, o = .dequeue g d t p q
    · obtain ⟨g, d, t, p, q, rfl⟩ := ho
      simp only [askedBy]
      constructor
      · intro h
        split at h
        · next e =>
          subst e
          rcases List.mem_cons.mp h with rfl | h
          · exact ⟨t, p, q, List.mem_cons_self ..⟩
          · obtain ⟨t', h⟩ := ih.mp h; exact ⟨t', h.cons _⟩
        · obtain ⟨t', h⟩ := ih.mp h; exact ⟨t', h.cons _⟩
      · intro ⟨t', p', q', h⟩
        rcases List.mem_cons.mp h with h | h
        · cases h; rw [if_pos rfl]; exact List.mem_cons_self ..
        · have := ih.mpr ⟨t', p', q', h⟩
          split
          · exact List.mem_cons_of_mem _ this
          · exact this
    · have ho : ∀ g d t p q, o ≠ .dequeue g d t p q := fun g d t p q e => ho ⟨g, d, t, p, q, e⟩
      rw [skip ho, ih]
      constructor
      · intro ⟨t, h⟩; exact ⟨t, h.cons _⟩
      · intro ⟨t, p, q, h⟩
        rcases List.mem_cons.mp h with h | h
        · exact (ho _ _ _ _ _ h.symm).elim
        · exact ⟨t, p, q, h⟩

theorem askedBy_nodup {f : Nat} {l : List Obs} (hg : ∀ c, walk c l ≠ .bad) : (askedBy f l).Nodup := by
  induction l with
  | nil => exact List.nodup_nil
  | cons o l ih =>
    have ih := ih fun c => walk_good (a := [o]) (hg c)
    cases o with
    | dequeue g c t p q =>
      simp only [askedBy]
      split
      · rw [List.nodup_cons]
        refine ⟨?_, ih⟩
        intro hm
        obtain ⟨t', h⟩ := mem_askedBy.mp hm
        have hf := facts c l
        apply hg c
        rw [walk, if_neg (by simp [heard]), if_pos (show said (Obs.dequeue g c t p q) = some c from rfl)]
        cases hw : walk c l with
        | idle => rw [hw] at hf; exact absurd h (hf _ _)
        | _ => rfl
      · exact ih
    | _ => exact ih

theorem good_of_inv {s : State} (h : Inv s) (c : Nat) : walk c s.log ≠ .bad := by
  by_cases hx : ∃ x ∈ s.flows, x.corr = c
  · obtain ⟨x, hx, rfl⟩ := hx
    rw [h.W.here x hx]; exact phaseOf_not_bad
  · rcases h.W.gone c (fun x hxm e => hx ⟨x, hxm, e⟩) with e | e <;> rw [e] <;> simp

theorem deq_of_phase {x : Flow} {l : List Obs} (h : Facts x.corr (phaseOf x) l) : Deq x.corr x.id x.trid l := by
  unfold phaseOf at h
  cases hst : x.stage <;> rw [hst] at h
  · exact h
  · exact h.1.1
  · exact h
  · obtain ⟨m, p, h, _⟩ := h; exact h.1.1
  · exact Storing.deq h
  · exact Finished.deq h
  · exact h

theorem inFlight_eq {s : State} (h : Inv s) (f : Nat) : inFlight f s.log = cnt f s.flows := by
  unfold inFlight cnt
  rw [← List.length_map (f := fun x : Flow => x.corr)]
  have hn1 : ((askedBy f s.log).filter fun c => waiting (walk c s.log)).Nodup :=
    List.Nodup.sublist List.filter_sublist (askedBy_nodup (good_of_inv h))
  have hn2 : ((s.flows.filter fun x => x.id == f).map fun x => x.corr).Nodup :=
    List.Nodup.sublist (List.filter_sublist.map _) h.W.nodup
  have hiff : ∀ c, c ∈ (askedBy f s.log).filter (fun c => waiting (walk c s.log)) ↔
      c ∈ (s.flows.filter fun x => x.id == f).map fun x => x.corr := by
    intro c
    rw [List.mem_filter, List.mem_map]
    constructor
    · intro ⟨h1, h2⟩
      by_cases hx : ∃ x ∈ s.flows, x.corr = c
      · obtain ⟨x, hx, rfl⟩ := hx
        obtain ⟨t, ht⟩ := mem_askedBy.mp h1
        have hf := facts x.corr s.log
        rw [h.W.here x hx] at hf
        have := deq_once (good_of_inv h _) ht (deq_of_phase hf)
        exact ⟨x, List.mem_filter.mpr ⟨hx, by simp [this.1]⟩, rfl⟩
      · rcases h.W.gone c (fun x hxm e => hx ⟨x, hxm, e⟩) with e | e <;> rw [e] at h2 <;> cases h2
    · intro ⟨x, hx, e⟩
      subst e
      obtain ⟨hx, hi⟩ := List.mem_filter.mp hx
      have hi : x.id = f := by simpa using hi
      have hf := facts x.corr s.log
      rw [h.W.here x hx] at hf
      refine ⟨mem_askedBy.mpr ⟨x.trid, hi ▸ deq_of_phase hf⟩, ?_⟩
      rw [h.W.here x hx]; exact waiting_phaseOf x
  exact Nat.le_antisymm (length_le_of_subset hn1 fun c hc => (hiff c).mp hc) (length_le_of_subset hn2 fun c hc => (hiff c).mpr hc)

/-! ### Steps that do not ask for messages -/

def isDeq : Obs → Bool
  | .dequeue _ _ _ _ _ => true
  | _ => false

/-- Neither a request for a message, nor something that is heard. -/
def calm (o : Obs) : Bool := !isDeq o && (heard o).isNone

def Quiet (s s' : State) : Prop := ∃ a, s'.log = a ++ s.log ∧ ∀ o ∈ a, calm o = true

theorem Quiet.refl {s s' : State} (h : s'.log = s.log) : Quiet s s' := ⟨[], h, by intro o ho; cases ho⟩

theorem Quiet.trans {s s' s'' : State} (h : Quiet s s') (h' : Quiet s' s'') : Quiet s s'' := by
  obtain ⟨a, ha, h1⟩ := h
  obtain ⟨b, hb, h2⟩ := h'
  refine ⟨b ++ a, by rw [hb, ha, List.append_assoc], ?_⟩
  intro o ho
  rcases List.mem_append.mp ho with ho | ho
  · exact h2 o ho
  · exact h1 o ho

theorem quiet_one {s s' : State} {o : Obs} (h : s'.log = o :: s.log) (ho : calm o = true) : Quiet s s' :=
  ⟨[o], h, by intro o' h'; rw [List.mem_singleton.mp h']; exact ho⟩

theorem quiet_fold {α : Type} {g : State → α → State} (hg : ∀ s a, Quiet s (g s a)) (xs : List α) : ∀ s, Quiet s (xs.foldl g s) := by
  induction xs with
  | nil => intro s; exact .refl rfl
  | cons a xs ih => intro s; exact (hg s a).trans (ih _)

theorem quiet_emits {α : Type} {g : α → Obs} (hg : ∀ a, calm (g a) = true) (xs : List α) (s : State) :
    Quiet s (xs.foldl (fun s a => emit (g a) s) s) := quiet_fold (fun _ a => quiet_one rfl (hg a)) xs s

theorem quiet_askQueues (f : Fwd) (s : State) : Quiet s (askQueues f s) := by
  unfold askQueues
  cases f.dest with
  | none => exact quiet_one rfl rfl
  | some d => exact (quiet_one (s' := ask f.id f.source.name s) rfl rfl).trans (quiet_one rfl rfl)

theorem quiet_finish (i : Nat) (g : Fwd → Fwd) (s : State) : Quiet s (finish i g s) := by
  unfold finish
  split
  · exact .refl rfl
  · split <;> exact .refl rfl

theorem quiet_cancel (pref : List Nat) (f : Fwd) (s : State) : Quiet s (cancel pref f s) := by
  unfold cancel
  dsimp only
  split
  · rw [emits_flows, emits_flows]
    refine ⟨_, (List.append_assoc ..).symm, ?_⟩
    intro o ho
    rcases List.mem_append.mp ho with ho | ho <;>
      (obtain ⟨_, _, rfl⟩ := List.mem_map.mp (List.mem_reverse.mp ho); rfl)
  · exact quiet_emits (fun _ => rfl) _ _

theorem quiet_comply (pref : List Nat) (s : State) : Quiet s (comply pref s) := by
  unfold comply
  dsimp only
  refine (quiet_emits (g := fun l : Look => .dropQueue l.corr) (fun _ => rfl) _ s).trans
    ((quiet_fold (fun s f => quiet_cancel pref f s) _ _).trans (quiet_fold ?_ _ _))
  intro s f
  unfold lookAgain
  split
  · exact quiet_askQueues f s
  · exact .refl rfl

theorem quiet_addOrUpdate (x : Conf) (s : State) : Quiet s (addOrUpdate x s) := by
  unfold addOrUpdate
  split
  · exact quiet_one rfl rfl
  · exact ⟨[.instances s.fwds.length x.instances, .created s.fwds.length x], rfl, by
      intro o ho
      rcases List.mem_cons.mp ho with rfl | ho
      · rfl
      · rw [List.mem_singleton.mp ho]; rfl⟩

theorem quiet_update (xs pref) (s : State) : Quiet s (update xs pref s) :=
  (quiet_fold (fun s x => quiet_addOrUpdate x s) _ s).trans (quiet_comply ..)

theorem quiet_shutdown (pref) (s : State) : Quiet s (shutdown pref s) := by
  unfold shutdown
  refine Quiet.trans ?_ (quiet_comply ..)
  exact .refl rfl

theorem take_log {c : Nat} {p : Stage → Bool} {s : State} {x : Flow} {s' : State} (h : take c p s = some (x, s')) : s'.log = s.log := by
  obtain ⟨a, b, _, rfl, _⟩ := take_some h; rfl

theorem quiet_move {x : Flow} {g : Stage} {o : Obs} {s s' : State} (h : s'.log = s.log) (ho : calm o = true) : Quiet s (move x g o s') :=
  quiet_one (by show o :: s'.log = _; rw [h]) ho

theorem quiet_got (c m) (s : State) : Quiet s (got c m s) := by
  unfold got
  split
  · exact .refl rfl
  · next x s' ht =>
    have hl := take_log ht
    split
    · exact quiet_move hl rfl
    · split
      · exact quiet_move hl rfl
      · split
        · exact .refl hl
        · split
          · exact quiet_move hl rfl
          · exact quiet_move hl rfl
          · exact .refl hl

theorem quiet_forgetRequest (c) (s : State) : Quiet s (forgetRequest c s) := by
  unfold forgetRequest
  split
  · exact .refl rfl
  · next x s' ht => exact (Quiet.refl (take_log ht)).trans (quiet_finish ..)

theorem quiet_found (c p) (s : State) : Quiet s (found c p s) := by
  unfold found
  split
  · exact .refl rfl
  · next x s' ht =>
    have hl := take_log ht
    split <;> exact quiet_move hl rfl

theorem quiet_dropped (c) (s : State) : Quiet s (dropped c s) := by
  unfold dropped
  split
  · exact .refl rfl
  · next x s' ht => exact quiet_move (take_log ht) rfl

theorem quiet_replied (c ok m) (s : State) : Quiet s (replied c ok m s) := by
  unfold replied
  split
  · exact .refl rfl
  · next x s' ht =>
    have hl := take_log ht
    split
    · exact .refl hl
    · split
      · split <;> exact quiet_move hl rfl
      · exact quiet_move hl rfl

theorem quiet_acked (c ok) (s : State) : Quiet s (acked c ok s) := by
  unfold acked
  split
  · exact .refl rfl
  · next x s' ht =>
    have hl := take_log ht
    split
    · exact quiet_move hl rfl
    · split
      · exact .refl hl
      · exact quiet_move (s' := s'.set x.id Fwd.invalidate) hl rfl

theorem quiet_bury (p : Nat) (f : Fwd) (s : State) : Quiet s (bury p f s) := by
  unfold bury
  dsimp only
  split
  · have h1 := quiet_emits (g := fun l : Look => .dropQueue l.corr) (fun _ => rfl) (s.lookups.filter (·.id == f.id)) s
    generalize (s.lookups.filter (·.id == f.id)).foldl (fun s l => emit (.dropQueue l.corr) s) s = s1 at h1
    have h2 := quiet_emits (g := fun x : Flow => .forget x.corr f.source.process) (fun _ => rfl)
      (s1.flows.filter fun x => x.id == f.id && x.stage == .dequeue) s1
    generalize (s1.flows.filter fun x => x.id == f.id && x.stage == .dequeue).foldl
      (fun s x => emit (.forget x.corr f.source.process) s) s1 = s2 at h2
    refine h1.trans (h2.trans ?_)
    split <;> exact .refl rfl
  · exact .refl rfl

theorem quiet_exited (p : Nat) (s : State) : Quiet s (exited p s) := quiet_fold (fun s f => quiet_bury p f s) _ s

/-! ### Asking -/

/-- What must be, when forward `f` asks for a message. -/
structure MayAsk (f c : Nat) (t : Trid) (p q : Option Nat) (b : List Obs) : Prop where
  tr : t.n = c
  room : inFlight f b + lostOf f b < instancesOf f b
  conf : ∃ x, confOf f b = some x ∧ x.enabled = true ∧ ∃ k, .queueAt k x.source q p false ∈ b
  there : p.isSome = true ∧ q.isSome = true

def Asks (l : List Obs) : Prop := ∀ a b f c t p q, l = a ++ .dequeue f c t p q :: b → MayAsk f c t p q b

theorem asks_cons {l : List Obs} {o : Obs} (h : Asks l) (ho : ∀ f c t p q, o = .dequeue f c t p q → MayAsk f c t p q l) :
    Asks (o :: l) := by
  intro a b f c t p q e
  cases a with
  | nil => cases e; exact ho _ _ _ _ _ rfl
  | cons o' a =>
    simp only [List.cons_append, List.cons.injEq] at e
    exact h a b f c t p q e.2

theorem asks_quiet {s s' : State} (h : Asks s.log) (hq : Quiet s s') : Asks s'.log := by
  obtain ⟨a, ha, hn⟩ := hq
  rw [ha]
  clear ha
  induction a with
  | nil => exact h
  | cons o a ih =>
    refine asks_cons (ih fun o' ho' => hn o' (List.mem_cons_of_mem _ ho')) ?_
    intro f c t p q e
    have := hn o (List.mem_cons_self ..)
    rw [e] at this; cases this

theorem asks_emit {s : State} {o : Obs} (h : Asks s.log) (ho : isDeq o = false) : Asks (emit o s).log :=
  asks_cons h fun f c t p q e => by rw [e] at ho; cases ho

theorem asks_undelivered {s : State} {c : Nat} (h : Asks s.log) : Asks (undelivered c s).log := by
  unfold undelivered
  split
  · next x s' ht => exact asks_emit (s := s') (by rw [take_log ht]; exact h) rfl
  · split
    · exact h
    · next x s' ht =>
      split
      · exact h
      · split
        · exact asks_emit (s := emit (.undelivered c) s') (asks_emit (s := s') (by rw [take_log ht]; exact h) rfl) rfl
        · exact h

/-- What a forward is, but for what is running. -/
def Like (f g : Fwd) : Prop := g.id = f.id ∧ g.source = f.source ∧ g.enabled = f.enabled ∧ g.configured = f.configured

theorem asks_startN {f : Fwd} (hen : f.enabled = true) (hv : f.source.ok = true) (n : Nat) : ∀ {s : State} {g : Fwd}, Inv s → Asks s.log →
    g ∈ s.fwds → Like f g → g.running + n ≤ f.configured → Asks (startN f n s).log := by
  induction n with
  | zero => intro s g _ h _ _ _; exact h
  | succ n ih =>
    intro s g hi h hg hl hn
    obtain ⟨l1, l2, l3, l4⟩ := hl
    refine ih (g := { g with running := g.running + 1 }) (inv_startOne hi ⟨g, hg, l1⟩) ?_ ?_ ⟨l1, l2, l3, l4⟩ (by show g.running + 1 + n ≤ _; omega)
    · refine asks_cons h ?_
      intro f' c t p q e
      cases e
      refine ⟨rfl, ?_, ?_, ?_⟩
      · show inFlight f.id s.log + lostOf f.id s.log < instancesOf f.id s.log
        have h1 := hi.F.inst g hg
        have h2 := hi.R.run g hg
        rw [inFlight_eq hi, ← l1, h1]
        omega
      · obtain ⟨x, hx, hm⟩ := hi.F.conf g hg
        obtain ⟨k, hk⟩ := hi.F.src g hg (by rw [l2]; exact hv)
        refine ⟨x, by rw [← l1]; exact hx, by rw [← hm.2.2.2.2.2, l3, hen], k, ?_⟩
        rw [← hm.2.2.1, ← l2]; exact hk
      · simp only [Source.ok, Bool.and_eq_true] at hv
        exact ⟨hv.2, hv.1⟩
    · simp only [startOne, State.set, List.mem_map]
      exact ⟨g, hg, by rw [if_pos l1]⟩

theorem asks_start {s : State} {f : Fwd} (h : Inv s) (ha : Asks s.log) (hf : f ∈ s.fwds) (hv : f.valid = true) : Asks (start f s).log := by
  unfold start
  split
  · next he =>
    by_cases hc : f.running ≤ f.configured
    · exact asks_startN he (by simp only [Fwd.valid, Bool.and_eq_true] at hv; exact hv.1) _ h ha hf ⟨rfl, rfl, rfl, rfl⟩ (by omega)
    · have : f.configured - f.running = 0 := by omega
      rw [this]; exact ha
  · exact ha

theorem asks_next {s : State} {i : Nat} (h : Inv s) (ha : Asks s.log) : Asks (next i s).log := by
  unfold next
  split
  · exact ha
  · next f hg =>
    split
    · next hv => exact asks_start h ha (mem_of_get hg).1 hv
    · split
      · exact ha
      · exact asks_quiet ha (quiet_askQueues f s)

theorem asks_queueAt {s : State} {c name q p r} (h : Inv s) (ha : Asks s.log) :
    Asks (queueAt c name q p r (emit (.queueAt c name q p r) s)).log := by
  have hi := inv_queueAt (c := c) (name := name) (q := q) (p := p) (r := r) h
  have ha := asks_emit (o := .queueAt c name q p r) ha rfl
  have he := inv_emit (o := .queueAt c name q p r) h rfl rfl
  have hlog : .queueAt c name q p r ∈ (emit (.queueAt c name q p r) s).log := List.mem_cons_self ..
  revert hi
  generalize emit (.queueAt c name q p r) s = s at ha he hlog
  intro _
  unfold queueAt
  cases hl : s.lookups.find? (·.corr == c) with
  | none => exact ha
  | some l =>
    dsimp only
    split
    · exact ha
    · split
      · exact ha
      · next f hg =>
        split
        · next hv =>
          obtain ⟨hf, hid⟩ := mem_of_get hg
          refine asks_start (inv_assign he hlog hl hf hid) ha ?_ hv
          simp only [State.set, List.mem_map]
          exact ⟨f, hf, by rw [if_pos hid]⟩
        · exact ha

theorem asks_apply {s : State} (e : Event) (h : Inv s) (ha : Asks s.log) : Asks (apply e s).log := by
  cases e with
  | update xs pref => exact asks_quiet ha (quiet_update ..)
  | shutdown pref => exact asks_quiet (asks_emit ha rfl) (quiet_shutdown ..)
  | exited p => exact asks_quiet (asks_emit ha rfl) (quiet_exited ..)
  | queueAt c n q p r => exact asks_queueAt h ha
  | queueDropped c r =>
    refine asks_quiet (asks_emit (o := .queueDropped c r) ha rfl) ?_
    show Quiet _ (queueDropped c r _)
    unfold queueDropped
    split <;> exact .refl rfl
  | got c m => exact asks_quiet (asks_emit ha rfl) (quiet_got ..)
  | forgetRequest c => exact asks_quiet (asks_emit ha rfl) (quiet_forgetRequest ..)
  | forgotten c d =>
    have ha := asks_emit (o := .forgotten c d) ha rfl
    show Asks (forgotten c d (emit (.forgotten c d) s)).log
    unfold forgotten
    split
    · next hd =>
      subst hd
      split
      · exact ha
      · next x s' ht =>
        obtain ⟨a, b, hs, hs', hc, hx⟩ := take_some ht
        obtain ⟨h1, _⟩ := inv_finish (g := id) h rfl rfl ht (by rw [stage_dequeue hx]; rfl)
          (fun f => ⟨rfl, rfl, rfl, rfl, rfl, rfl, rfl, rfl, fun _ => rfl⟩) (fun _ => rfl) rfl
          (fun f => by simp [isCommitted]) (fun f => by simp [isRolledBack])
        exact asks_next h1 (asks_quiet ha ((Quiet.refl (take_log ht)).trans (quiet_finish ..)))
    · exact ha
  | found c p => exact asks_quiet (asks_emit ha rfl) (quiet_found ..)
  | dropped c => exact asks_quiet (asks_emit ha rfl) (quiet_dropped ..)
  | replied c ok m => exact asks_quiet (asks_emit ha rfl) (quiet_replied ..)
  | acked c ok => exact asks_quiet (asks_emit ha rfl) (quiet_acked ..)
  | own i =>
    simp only [apply]
    cases s.own[i]? with
    | none => exact ha
    | some c => exact asks_quiet (asks_emit (s := { s with own := s.own.eraseIdx i }) ha rfl) (quiet_acked ..)
  | rolledBack c ok =>
    have ha := asks_emit (o := .rolledBack c ok) ha rfl
    show Asks (rolledBack c (emit (.rolledBack c ok) s)).log
    unfold rolledBack
    split
    · exact ha
    · next x s' ht =>
      obtain ⟨a, b, hs, hs', hc, hx⟩ := take_some ht
      have hph : phaseOf x = .rolling x.id x.trid := by unfold phaseOf; rw [beq_iff_eq.mp hx]
      obtain ⟨h1, _⟩ := inv_finish (g := fun f => { f with rollbacks := f.rollbacks + 1 }) h rfl rfl ht (by rw [hph]; rfl)
        (fun f => ⟨rfl, rfl, rfl, rfl, rfl, rfl, rfl, rfl, fun _ => rfl⟩) (fun _ => rfl) rfl
        (fun f => by simp [isCommitted]) (fun f => by simp [isRolledBack, Nat.add_comm])
      exact asks_next h1 (asks_quiet ha ((Quiet.refl (take_log ht)).trans (quiet_finish ..)))
  | committed c e =>
    have ha := asks_emit (o := .committed c e) ha rfl
    show Asks (committed c e (emit (.committed c e) s)).log
    unfold committed
    split
    · exact ha
    · next he =>
      split
      · exact ha
      · next x s' ht =>
        obtain ⟨a, b, hs, hs', hc, hx⟩ := take_some ht
        have hph : phaseOf x = .committing x.id x.trid := by unfold phaseOf; rw [beq_iff_eq.mp hx]
        obtain ⟨h1, _⟩ := inv_finish (g := fun f => { f with commits := f.commits + 1 }) h rfl rfl ht
          (by rw [hph]; cases e <;> first | rfl | exact absurd rfl he)
          (fun f => ⟨rfl, rfl, rfl, rfl, rfl, rfl, rfl, rfl, fun _ => rfl⟩) (fun _ => rfl) rfl
          (fun f => by simp [isCommitted, Nat.add_comm]) (fun f => by simp [isRolledBack])
        exact asks_next h1 (asks_quiet ha ((Quiet.refl (take_log ht)).trans (quiet_finish ..)))
  | undelivered c => exact asks_undelivered ha

theorem asks_run (es : List Event) : Asks (run es).log := by
  induction es using Casual.snocInd with
  | nil => intro a b f c t p q e; cases a <;> cases e
  | snoc es e ih => rw [run_step]; exact asks_apply e (inv_run es) ih

end Casual.Forward
