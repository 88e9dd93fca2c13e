import Verif.Gateway.InWhy
/-! What an inbound group does is a sequence of a few kinds of moves, when the sending of replies to
the other domain does not fail. -/
namespace Casual.Gateway.In

/-- A reply that ends a unit, and a message that ends a conversation, is sent without failure. -/
def sound : Event → Bool
  | .answer _ _ k _ ok => ok || !(k == .call || isResource k)
  | .own _ ok => ok
  | .localSay _ _ _ terminated ok => ok || !terminated
  | _ => true

/-- No unit takes the message. -/
def Deaf (p : Kind → Bool) (c : Nat) (s : State) : Prop :=
  (∀ t ∈ s.tasks, t.corr ≠ c) ∨ ∃ t ∈ s.tasks, t.corr = c ∧ p t.kind = false

/-- The units that a reply of the kind ends. -/
def ends (k : Kind) (k' : Kind) : Bool := k == replyKind k'

def Harmless (s : State) : Obs → Prop
  | .toProcess .. | .askDisconnect _ | .closing _ | .explore .. | .undelivered .. => True
  | .got _ c k _ => (k == .call || isResource k) = true → Deaf (ends k) c s
  | .req _ _ k _ => k = .discovery
  | .toRemote _ _ _ terminated => terminated = false
  | .sent _ _ k _ _ => (k == .call || isResource k) = false
  | .gotService c _ => Deaf isService c s
  | .gotQueue c _ => Deaf isQueue c s
  | .gotBranch c _ => Deaf (fun k => isService k || isQueue k) c s
  | _ => False

inductive Move (s : State) : State → Prop
  | same (t : State) (h1 : t.conns = s.conns) (h2 : t.tasks = s.tasks) (h3 : t.cache = s.cache) (h4 : t.inbox = s.inbox)
      (h5 : t.log = s.log) (h6 : t.dead = s.dead) (h7 : t.pending.Sublist s.pending) : Move s t
  | push (d : Nat) (h : connected d s = true) : Move s { emit (.closing d) s with pending := s.pending ++ [d] }
  | die (t : State) (h1 : t.dead = true) : Move s t
  | connect (d : Nat) (m : Bool) (h : connected d s = false) :
      Move s (emit (.connected d) { s with conns := s.conns ++ [⟨d, m⟩] })
  | lost (d : Nat) (h : connected d s = true) : Move s (lost d s)
  | note (o : Obs) (h : Harmless s o) : Move s (emit o s)
  | ended (d c data : Nat) (h : connected d s = true) :
      Move s { emit (.toRemote d c data true) s with tasks := s.tasks.filter (·.corr ≠ c) }
  | service (k : Kind) (d c : Nat) (x : Option Trid) (hk : isService k = true) (h : connected d s = true) :
      Move s (serviceRequest k d c x (emit (.req d c k x) s))
  | queue (k : Kind) (d c : Nat) (x : Option Trid) (qm : Bool) (hk : isQueue k = true) (h : connected d s = true) :
      Move s (queueRequest k d c x qm (emit (.req d c k x) s))
  | resource (k : Kind) (d c : Nat) (x : Option Trid) (hk : isResource k = true) (h : connected d s = true) :
      Move s (resourceRequest k d c x (emit (.req d c k x) s))
  | hangup (pre : List Task) (t : Task) (post : List Task) (ipc : Nat) (h : s.tasks = pre ++ t :: post)
      (hf : ∀ u ∈ pre, u.corr ≠ t.corr) (hk : t.kind = .conv) :
      Move s { emit (.hangup ipc t.corr) s with tasks := pre ++ post }
  | idleFwd (pre : List Task) (t : Task) (post : List Task) (ipc : Nat) (h : s.tasks = pre ++ t :: post)
      (hf : ∀ u ∈ pre, u.corr ≠ t.corr) (hk : isService t.kind = true) (ho : t.origin = none ∨ t.origin ≠ t.trid) :
      Move s { emit (.fwd ipc t.corr t.kind t.trid t.key) (emit (.gotService t.corr (.idle ipc)) s) with
        tasks := pre ++ { t with lookup := some (some ipc) } :: post }
  | idleHold (pre : List Task) (t : Task) (post : List Task) (ipc : Nat) (h : s.tasks = pre ++ t :: post)
      (hf : ∀ u ∈ pre, u.corr ≠ t.corr) (hk : isService t.kind = true) (ho : ¬(t.origin = none ∨ t.origin ≠ t.trid)) :
      Move s { emit (.gotService t.corr (.idle ipc)) s with
        tasks := pre ++ { t with lookup := some (some ipc) } :: post }
  | noService (t : Task) (l : Lookup) (r : Rep) (h : t ∈ s.tasks) (hk : isService t.kind = true) (hl : ∀ ipc, l ≠ .idle ipc) :
      Move s (fake t.key t.corr (replyKind t.kind) r (emit (.gotService t.corr l) s))
  | queueHold (pre : List Task) (t : Task) (post : List Task) (p : Option Nat) (h : s.tasks = pre ++ t :: post)
      (hf : ∀ u ∈ pre, u.corr ≠ t.corr) (hk : isQueue t.kind = true) (hw : t.wait = true) :
      Move s { emit (.gotQueue t.corr p) s with tasks := pre ++ { t with lookup := some p } :: post }
  | queueSend (pre : List Task) (t : Task) (post : List Task) (p : Option Nat) (h : s.tasks = pre ++ t :: post)
      (hf : ∀ u ∈ pre, u.corr ≠ t.corr) (hk : isQueue t.kind = true) (hw : t.wait = false) :
      Move s { queueSend p t (emit (.gotQueue t.corr p) s) with tasks := pre ++ post }
  | branchFwd (pre : List Task) (t : Task) (post : List Task) (ipc : Nat) (b : Trid) (h : s.tasks = pre ++ t :: post)
      (hf : ∀ u ∈ pre, u.corr ≠ t.corr) (hk : isService t.kind = true) (hl : t.lookup = some (some ipc)) :
      Move s { emit (.fwd ipc t.corr t.kind (some b) t.key) (emit (.gotBranch t.corr b) s) with
        cache := addTrid b t.key s.cache, tasks := pre ++ { t with trid := some b } :: post }
  | branchHold (pre : List Task) (t : Task) (post : List Task) (b : Trid) (h : s.tasks = pre ++ t :: post)
      (hf : ∀ u ∈ pre, u.corr ≠ t.corr) (hk : isService t.kind = true) (hl : ∀ ipc, t.lookup ≠ some (some ipc)) :
      Move s { emit (.gotBranch t.corr b) s with
        cache := addTrid b t.key s.cache, tasks := pre ++ { t with trid := some b } :: post }
  | branchQueueHold (pre : List Task) (t : Task) (post : List Task) (b : Trid) (h : s.tasks = pre ++ t :: post)
      (hf : ∀ u ∈ pre, u.corr ≠ t.corr) (hk : isQueue t.kind = true) (hl : t.lookup = none) :
      Move s { emit (.gotBranch t.corr b) s with
        cache := addTrid b t.key s.cache, tasks := pre ++ { t with trid := some b, wait := false } :: post }
  | branchQueueSend (pre : List Task) (t : Task) (post : List Task) (b : Trid) (p : Option Nat) (h : s.tasks = pre ++ t :: post)
      (hf : ∀ u ∈ pre, u.corr ≠ t.corr) (hk : isQueue t.kind = true) (hl : t.lookup = some p) :
      Move s { In.queueSend p { t with trid := some b, wait := false }
          { emit (.gotBranch t.corr b) s with cache := addTrid b t.key s.cache } with tasks := pre ++ post }
  | answered (pre : List Task) (t : Task) (post : List Task) (k : Kind) (r : Rep) (x : Option Trid) (ib : List Own)
      (g : List Obs) (hg : g = [] ∨ ∃ d', g = [.got d' t.corr k r]) (h : s.tasks = pre ++ t :: post)
      (hf : ∀ u ∈ pre, u.corr ≠ t.corr) (hk : (k == .call || isResource k) = true) (he : ends k t.kind = true)
      (h1 : ib.Sublist s.inbox) (h2 : ∀ m ∈ s.inbox, m.c ≠ t.corr → m ∈ ib) :
      Move s { s with tasks := pre ++ post, inbox := ib, log := .sent t.key t.corr k r x :: (g ++ s.log) }
  | pop (i : Nat) (m : Own) (h : s.inbox[i]? = some m) (hd : (m.k == .call || isResource m.k) = true → Deaf (ends m.k) m.c s) :
      Move s { s with inbox := s.inbox.eraseIdx i }
  | made (d c : Nat) (k : Kind) (r : Rep) : Move s (fake d c (replyKind k) r s)
  | disassociate (g : Nat) : Move s (emit (.disassociate g) { s with cache := removeTrid g s.cache })

inductive Moves : State → State → Prop
  | refl (s) : Moves s s
  | head {s t u} : Move s t → Moves t u → Moves s u

theorem Move.one {s t} (h : Move s t) : Moves s t := .head h (.refl t)

theorem Moves.trans {s t u} (h : Moves s t) (h' : Moves t u) : Moves s u := by
  induction h with
  | refl => exact h'
  | head a _ ih => exact .head a (ih h')

theorem moves_inv {P : State → Prop} (hp : ∀ s t, Move s t → P s → P t) {s t} (h : Moves s t) (hs : P s) : P t := by
  induction h with
  | refl => exact hs
  | head a _ ih => exact ih (hp _ _ a hs)

theorem moves_lost (d s) : Moves s (lost d s) := by
  cases h : connected d s with
  | true => exact (Move.lost d h).one
  | false => rw [lost_not h]; exact (Move.die _ rfl).one

theorem moves_send {ok d o s} (h : Harmless s o) : Moves s (send ok d o s) := by
  unfold send; split
  · split
    · exact (Move.note o h).one
    · exact moves_lost d s
  · exact .refl s

theorem deaf_of {p : Kind → Bool} {c : Nat} {s : State} {t : Task} (ht : t ∈ s.tasks) (hc : t.corr = c) (hk : p t.kind = false) :
    Deaf p c s := Or.inr ⟨t, ht, hc, hk⟩

/-- With the unit, or with no effect. -/
theorem dispatch_moves {c h s u} (hn : (∀ t ∈ s.tasks, t.corr ≠ c) → Moves u s)
    (hs : ∀ pre t post s' t', s.tasks = pre ++ t :: post → t.corr = c → (∀ v ∈ pre, v.corr ≠ c) → h t s = (s', some t') →
      Moves u { s' with tasks := pre ++ t' :: post })
    (hd : ∀ pre t post s', s.tasks = pre ++ t :: post → t.corr = c → (∀ v ∈ pre, v.corr ≠ c) → h t s = (s', none) →
      s'.dead = true ∨ (s'.tasks = s.tasks ∧ Moves u { s' with tasks := pre ++ post })) : Moves u (dispatch c h s) := by
  rcases dispatch_cases c h s with ⟨h0, e⟩ | ⟨pre, t, post, h1, h2, h3, h4⟩
  · rw [e]; exact hn h0
  · rcases h4 with ⟨s', t', h5, e⟩ | ⟨s', h5, h6, e⟩ | ⟨s', h5, h6, e⟩
    · rw [e]; exact hs pre t post s' t' h1 h2 h3 h5
    · rw [e]
      rcases hd pre t post s' h1 h2 h3 h5 with h | ⟨h7, h8⟩
      · exact (Move.die { s' with tasks := s'.tasks.eraseIdx pre.length } h).one
      · have : s'.tasks.eraseIdx pre.length = pre ++ post := by
          rw [h7, h1]; simp [List.eraseIdx_append_of_length_le]
        rw [this]; exact h8
    · rw [e]; exact (Move.die _ rfl).one

/-- Put back what was there. -/
theorem put_back {s : State} {pre post : List Task} {t : Task} (h : s.tasks = pre ++ t :: post) :
    { s with tasks := pre ++ t :: post } = s := by
  rw [← h]

theorem moves_service {c l s} : Moves s (dispatch c (onService l) (emit (.gotService c l) s)) := by
  refine dispatch_moves ?_ ?_ ?_
  · intro h; exact (Move.note (s := s) (.gotService c l) (Or.inl h)).one
  · intro pre t post s' t' h1 h2 h3 h
    subst h2
    have hm : t ∈ s.tasks := by rw [show s.tasks = _ from h1]; simp
    unfold onService at h
    split at h
    · rename_i hk
      split at h
      · dsimp only at h
        split at h
        · rename_i ho
          simp only [Prod.mk.injEq, Option.some.injEq] at h
          obtain ⟨rfl, rfl⟩ := h
          exact (Move.idleFwd (s := s) pre t post _ h1 h3 hk ho).one
        · rename_i ho
          simp only [Prod.mk.injEq, Option.some.injEq] at h
          obtain ⟨rfl, rfl⟩ := h
          exact (Move.idleHold (s := s) pre t post _ h1 h3 hk ho).one
      all_goals
        simp only [Prod.mk.injEq, Option.some.injEq] at h
        obtain ⟨rfl, rfl⟩ := h
        rw [put_back ((fake_tasks ..).trans h1)]
        exact (Move.noService (s := s) t _ _ hm hk (by intro ipc h; cases h)).one
    · rename_i hk
      simp only [Prod.mk.injEq, Option.some.injEq] at h
      obtain ⟨rfl, rfl⟩ := h
      rw [put_back h1]
      exact (Move.note (s := s) (.gotService t.corr l) (deaf_of (p := isService) hm rfl (by simpa using hk))).one
  · intro pre t post s' h1 h2 h3 h
    unfold onService at h
    split at h
    · split at h
      · dsimp only at h
        split at h <;> simp at h
      all_goals simp at h
    · simp at h

theorem queueSend_tasks (p t s) : (queueSend p t s).tasks = s.tasks := by
  unfold queueSend; split
  · exact fake_tasks ..
  · rfl

theorem moves_queue {c p s} : Moves s (dispatch c (onQueue p) (emit (.gotQueue c p) s)) := by
  refine dispatch_moves ?_ ?_ ?_
  · intro h; exact (Move.note (s := s) (.gotQueue c p) (Or.inl h)).one
  · intro pre t post s' t' h1 h2 h3 h
    subst h2
    have hm : t ∈ s.tasks := by rw [show s.tasks = _ from h1]; simp
    unfold onQueue at h
    split at h
    · rename_i hk
      split at h
      · rename_i hw
        simp only [Prod.mk.injEq, Option.some.injEq] at h
        obtain ⟨rfl, rfl⟩ := h
        exact (Move.queueHold (s := s) pre t post _ h1 h3 hk hw).one
      · simp at h
    · rename_i hk
      simp only [Prod.mk.injEq, Option.some.injEq] at h
      obtain ⟨rfl, rfl⟩ := h
      rw [put_back h1]
      exact (Move.note (s := s) (.gotQueue t.corr p) (deaf_of (p := isQueue) hm rfl (by simpa using hk))).one
  · intro pre t post s' h1 h2 h3 h
    subst h2
    unfold onQueue at h
    split at h
    · rename_i hk
      split at h
      · simp at h
      · rename_i hw
        simp only [Prod.mk.injEq, and_true] at h
        subst h
        exact Or.inr ⟨queueSend_tasks .., (Move.queueSend (s := s) pre t post _ h1 h3 hk (by simpa using hw)).one⟩
    · simp at h

theorem moves_branch {c b s} : Moves s (dispatch c (onBranch b) (emit (.gotBranch c b) s)) := by
  refine dispatch_moves ?_ ?_ ?_
  · intro h; exact (Move.note (s := s) (.gotBranch c b) (Or.inl h)).one
  · intro pre t post s' t' h1 h2 h3 h
    subst h2
    have hm : t ∈ s.tasks := by rw [show s.tasks = _ from h1]; simp
    unfold onBranch at h
    split at h
    · rename_i hk
      dsimp only at h
      split at h
      · rename_i hl
        simp only [Prod.mk.injEq, Option.some.injEq] at h
        obtain ⟨rfl, rfl⟩ := h
        exact (Move.branchFwd (s := s) pre t post _ b h1 h3 hk hl).one
      · rename_i hl
        simp only [Prod.mk.injEq, Option.some.injEq] at h
        obtain ⟨rfl, rfl⟩ := h
        exact (Move.branchHold (s := s) pre t post b h1 h3 hk hl).one
    · rename_i hs
      split at h
      · rename_i hk
        dsimp only at h
        split at h
        · rename_i hl
          simp only [Prod.mk.injEq, Option.some.injEq] at h
          obtain ⟨rfl, rfl⟩ := h
          exact (Move.branchQueueHold (s := s) pre t post b h1 h3 hk hl).one
        · simp at h
      · rename_i hk
        simp only [Prod.mk.injEq, Option.some.injEq] at h
        obtain ⟨rfl, rfl⟩ := h
        rw [put_back h1]
        exact (Move.note (s := s) (.gotBranch t.corr b) (deaf_of (p := (fun k => isService k || isQueue k)) hm rfl (by simp_all))).one
  · intro pre t post s' h1 h2 h3 h
    subst h2
    unfold onBranch at h
    split at h
    · dsimp only at h
      split at h <;> simp at h
    · split at h
      · rename_i hk
        dsimp only at h
        split at h
        · simp at h
        · rename_i p hl
          simp only [Prod.mk.injEq, and_true] at h
          subst h
          exact Or.inr ⟨queueSend_tasks .., (Move.branchQueueSend (s := s) pre t post b p h1 h3 hk hl).one⟩
      · simp at h

/-- `s` is `s0` after a reply has been received, or has been taken from the inbox. -/
structure Took (s0 s : State) (c : Nat) (k : Kind) (r : Rep) (g : List Obs) : Prop where
  w : W s
  eq : s = { s0 with inbox := s.inbox, log := g ++ s0.log }
  got : g = [] ∨ ∃ d', g = [.got d' c k r]
  sub : s.inbox.Sublist s0.inbox
  rest : ∀ m ∈ s0.inbox, m.c ≠ c → m ∈ s.inbox

theorem Took.tasks {s0 s c k r g} (h : Took s0 s c k r g) : s0.tasks = s.tasks := by rw [h.eq]

/-- A reply that ends a unit. -/
theorem moves_ends {s0 s : State} {pre post : List Task} {t : Task} {k r x g} (hw : Took s0 s t.corr k r g)
    (h1 : s.tasks = pre ++ t :: post)
    (h3 : ∀ v ∈ pre, v.corr ≠ t.corr) (hk : (k == .call || isResource k) = true) (he : ends k t.kind = true) :
    (send true t.key (.sent t.key t.corr k r x) s).tasks = s.tasks ∧
    Moves s0 { send true t.key (.sent t.key t.corr k r x) s with tasks := pre ++ post } := by
  have hc : connected t.key s = true := hw.w.keys t (by rw [h1]; simp)
  have e : send true t.key (.sent t.key t.corr k r x) s = emit (.sent t.key t.corr k r x) s := by
    unfold send; rw [if_pos hc]; rfl
  rw [e]
  refine ⟨rfl, ?_⟩
  have ht : s0.tasks = pre ++ t :: post := hw.tasks.trans h1
  have := (Move.answered pre t post k r x s.inbox g hw.got ht h3 hk he hw.sub hw.rest).one
  have e2 : { emit (.sent t.key t.corr k r x) s with tasks := pre ++ post } =
      { s0 with tasks := pre ++ post, inbox := s.inbox, log := .sent t.key t.corr k r x :: (g ++ s0.log) } := by
    rw [hw.eq]; rfl
  rw [e2]; exact this

theorem ends_call {k : Kind} (h : ¬(k = .call ∨ k = .post)) : ends .call k = false := by
  cases k <;> first | rfl | exact absurd (Or.inl rfl) h | exact absurd (Or.inr rfl) h
theorem ends_resource {k k' : Kind} (h : isResource k = true) (h' : ¬k' = k) : ends k k' = false := by
  cases k <;> cases k' <;> first | rfl | exact absurd rfl h' | cases h
theorem ends_same {k : Kind} (h : isResource k = true) : ends k k = true := by
  cases k <;> first | rfl | cases h

theorem moves_call {s0 s : State} {c r g} (hw : Took s0 s c .call r g) (hn : Deaf (ends .call) c s0 → Moves s0 s) :
    Moves s0 (dispatch c (onCall r true) s) := by
  have ht0 : s0.tasks = s.tasks := hw.tasks
  refine dispatch_moves ?_ ?_ ?_
  · intro h; exact hn (Or.inl (by rw [ht0]; exact h))
  · intro pre t post s' t' h1 h2 h3 h
    subst h2
    unfold onCall at h
    split at h
    · split at h <;> simp at h
    · rename_i hk
      simp only [Prod.mk.injEq, Option.some.injEq] at h
      obtain ⟨rfl, rfl⟩ := h
      rw [put_back h1]
      refine hn (deaf_of (t := t) (by rw [ht0, h1]; simp) rfl (ends_call hk))
  · intro pre t post s' h1 h2 h3 h
    subst h2
    unfold onCall at h
    split at h
    · rename_i hk
      split at h
      · simp only [Prod.mk.injEq, and_true] at h
        subst h
        exact Or.inr (moves_ends hw h1 h3 rfl (by rcases hk with h | h <;> rw [h] <;> rfl))
      · simp only [Prod.mk.injEq, and_true] at h
        exact Or.inl (by rw [← h])
    · simp at h

theorem moves_resource {s0 s : State} {c k r g} (hk : isResource k = true) (hw : Took s0 s c k r g)
    (hn : Deaf (ends k) c s0 → Moves s0 s) :
    Moves s0 (dispatch c (onResource k r true) s) := by
  have ht0 : s0.tasks = s.tasks := hw.tasks
  refine dispatch_moves ?_ ?_ ?_
  · intro h; exact hn (Or.inl (by rw [ht0]; exact h))
  · intro pre t post s' t' h1 h2 h3 h
    subst h2
    unfold onResource at h
    split at h
    · simp at h
    · rename_i hk'
      simp only [Prod.mk.injEq, Option.some.injEq] at h
      obtain ⟨rfl, rfl⟩ := h
      rw [put_back h1]
      refine hn (deaf_of (t := t) (by rw [ht0, h1]; simp) rfl (ends_resource hk hk'))
  · intro pre t post s' h1 h2 h3 h
    subst h2
    unfold onResource at h
    split at h
    · rename_i hk'
      simp only [Prod.mk.injEq, and_true] at h
      subst h
      exact Or.inr (moves_ends hw h1 h3 (by rw [hk]; simp) (by rw [hk']; exact ends_same hk))
    · simp at h

theorem moves_answer {s0 s : State} {d c k r ok g} (ho : ok = true ∨ (k == .call || isResource k) = false)
    (hw : Took s0 s c k r g)
    (hn : ((k == .call || isResource k) = true → Deaf (ends k) c s0) → Moves s0 s) :
    Moves s0 (answer d c k r ok s) := by
  cases k
  case call =>
    have : ok = true := by rcases ho with h | h; exact h; cases h
    subst this
    exact moves_call hw fun h => hn fun _ => h
  case post => exact hn fun h => by cases h
  case prepare =>
    have : ok = true := by rcases ho with h | h; exact h; cases h
    subst this
    exact moves_resource rfl hw fun h => hn fun _ => h
  case commit =>
    have : ok = true := by rcases ho with h | h; exact h; cases h
    subst this
    exact moves_resource rfl hw fun h => hn fun _ => h
  case rollback =>
    have : ok = true := by rcases ho with h | h; exact h; cases h
    subst this
    exact moves_resource rfl hw fun h => hn fun _ => h
  case conv => exact (hn fun h => by cases h).trans (moves_send rfl)
  case enqueue => exact (hn fun h => by cases h).trans (moves_send rfl)
  case dequeue => exact (hn fun h => by cases h).trans (moves_send rfl)
  case discovery => exact (hn fun h => by cases h).trans (moves_send rfl)

theorem moves_say {c data s} : Moves s (dispatch c (onSay data) s) := by
  refine dispatch_moves ?_ ?_ ?_
  · intro h; exact .refl s
  · intro pre t post s' t' h1 h2 h3 h
    unfold onSay at h
    split at h
    · split at h
      all_goals
        simp only [Prod.mk.injEq, Option.some.injEq] at h
        obtain ⟨rfl, rfl⟩ := h
      · rename_i ipc _
        rw [put_back (s := emit (.toProcess ipc t.corr data) s) h1]
        exact (Move.note (.toProcess ipc t.corr data) trivial).one
      · exact (Move.die _ rfl).one
    · simp only [Prod.mk.injEq, Option.some.injEq] at h
      obtain ⟨rfl, rfl⟩ := h
      rw [put_back h1]; exact .refl _
  · intro pre t post s' h1 h2 h3 h
    unfold onSay at h
    split at h
    · split at h <;> simp at h
    · simp at h

theorem moves_hangup {c s} : Moves s (dispatch c onHangup s) := by
  refine dispatch_moves ?_ ?_ ?_
  · intro h; exact .refl s
  · intro pre t post s' t' h1 h2 h3 h
    unfold onHangup at h
    split at h
    · split at h <;> simp at h
    · simp only [Prod.mk.injEq, Option.some.injEq] at h
      obtain ⟨rfl, rfl⟩ := h
      rw [put_back h1]; exact .refl _
  · intro pre t post s' h1 h2 h3 h
    subst h2
    unfold onHangup at h
    split at h
    · rename_i hk
      split at h
      all_goals
        simp only [Prod.mk.injEq, and_true] at h
        subst h
      · exact Or.inr ⟨rfl, (Move.hangup pre t post _ h1 h3 hk).one⟩
      · exact Or.inl rfl
    · simp at h

theorem moves_disconnect {ok d s} : Moves s (disconnect ok d s) := by
  unfold disconnect; split
  · exact .refl s
  · split
    · exact moves_send trivial
    · exact moves_lost d s

theorem moves_fold {A : Type} {f : State → A → State} (h : ∀ s a, Moves s (f s a)) (xs : List A) (s : State) :
    Moves s (xs.foldl f s) := by
  induction xs generalizing s with
  | nil => exact .refl s
  | cons x xs ih => exact (h s x).trans (ih _)

theorem moves_request {k d c x qm s} (h : connected d s = true) : Moves s (request k d c x qm (emit (.req d c k x) s)) := by
  cases k
  case call => exact (Move.service _ d c x rfl h).one
  case post => exact (Move.service _ d c x rfl h).one
  case conv => exact (Move.service _ d c x rfl h).one
  case enqueue => exact (Move.queue _ d c x qm rfl h).one
  case dequeue => exact (Move.queue _ d c x qm rfl h).one
  case prepare => exact (Move.resource _ d c x rfl h).one
  case commit => exact (Move.resource _ d c x rfl h).one
  case rollback => exact (Move.resource _ d c x rfl h).one
  case discovery =>
    exact (Move.note (.req d c .discovery x) rfl).one.trans (Move.note (.explore d c) trivial).one

theorem moves_apply {e s} (hw : W s) (he : sound e = true) : Moves s (apply e s) := by
  cases e
  case connect d m =>
    simp only [apply]; split
    · exact .refl s
    · rename_i h; exact (Move.connect d m (by simpa using h)).one
  case request k d c x qm =>
    simp only [apply]; exact on_ind (P := Moves s) (.refl s) fun h => moves_request h
  case say d c data => exact on_ind (P := Moves s) (.refl s) fun _ => moves_say
  case hangup d c => exact on_ind (P := Moves s) (.refl s) fun _ => moves_hangup
  case closing d =>
    simp only [apply]
    refine on_ind (P := Moves s) (.refl s) fun h => ?_
    unfold closing; split
    · exact (Move.note (.closing d) trivial).one.trans (moves_lost d _)
    · exact (Move.push d h).one
  case broken d => exact on_ind (P := Moves s) (.refl s) fun _ => moves_lost d s
  case service d c l =>
    simp only [apply]; exact on_ind (P := Moves s) (.refl s) fun _ => moves_service
  case queueAt d c p =>
    simp only [apply]; exact on_ind (P := Moves s) (.refl s) fun _ => moves_queue
  case branch d c t =>
    simp only [apply]; exact on_ind (P := Moves s) (.refl s) fun _ => moves_branch
  case answer d c k r ok =>
    simp only [apply]
    refine on_ind (P := Moves s) (.refl s) fun _ => ?_
    refine moves_answer (s0 := s) (s := emit (.got d c k r) s) (g := [.got d c k r]) ?_
      ⟨w_emit rfl trivial hw, rfl, Or.inr ⟨d, rfl⟩, List.Sublist.refl _, fun m hm _ => hm⟩
      (fun h => (Move.note (.got d c k r) h).one)
    simp only [sound] at he
    cases ok
    · right; simpa using he
    · exact Or.inl rfl
  case localSay d c data t ok =>
    refine on_ind (P := Moves s) (.refl s) fun h => ?_
    unfold localSay
    simp only [sound] at he
    cases t
    · exact moves_send rfl
    · have : ok = true := by simpa using he
      subst this
      have e : send true d (.toRemote d c data true) s = emit (.toRemote d c data true) s := by
        unfold send; rw [if_pos h]; rfl
      rw [e]; exact (Move.ended d c data h).one
  case own i ok =>
    simp only [apply]; split
    · exact .refl s
    · rename_i m hm
      simp only [sound] at he
      refine moves_answer (s0 := s) (g := []) (Or.inl he)
        ⟨w_sub (s := s) rfl (fun _ h => h) rfl (fun u hu => ?_) rfl hw, rfl, Or.inl rfl, ?_, ?_⟩ ?_
      · exact (List.eraseIdx_sublist ..).mem hu
      · exact List.eraseIdx_sublist ..
      · intro m' hm' hc
        rw [List.mem_eraseIdx_iff_getElem?]
        obtain ⟨j, hj⟩ := List.getElem?_of_mem hm'
        refine ⟨j, ?_, hj⟩
        rintro rfl
        rw [hm] at hj
        simp only [Option.some.injEq] at hj
        exact hc (by rw [hj])
      · intro h; exact (Move.pop i m hm h).one
  case undeliverable d c k =>
    exact (Move.note (.undelivered d c k) trivial).one.trans (Move.made d c k _).one
  case disassociate g => exact (Move.disassociate g).one
  case disconnect d ok => exact moves_disconnect
  case idle =>
    refine Moves.trans ?_ (moves_fold (fun s d => moves_lost d s) _ _)
    exact (Move.same (s := s) { s with pending := s.pending.filter fun d => !disconnectable d s } rfl rfl rfl rfl rfl rfl List.filter_sublist).one
  case shutdown bad =>
    refine Moves.trans ?_ (moves_fold (fun s d => moves_disconnect) _ _)
    exact (Move.same (s := s) { s with running := false } rfl rfl rfl rfl rfl rfl (List.Sublist.refl _)).one

/-- What each move keeps, is kept. -/
theorem inv_moves {P : State → Prop} (h0 : P {}) (hp : ∀ s t, Move s t → P s → P t) (es : List Event)
    (he : ∀ e ∈ es, sound e = true) : P (run es) := by
  have := inv_run_of (P := fun s => W s ∧ P s) (A := fun e => sound e = true) ⟨w_run [], h0⟩
    (fun s e _ ha hs => ⟨w_apply hs.1, moves_inv hp (moves_apply hs.1 ha) hs.2⟩) es he
  exact this.2

theorem queueSend_dead (p t s) : (queueSend p t s).dead = s.dead := by
  unfold queueSend; split
  · exact fake_dead ..
  · rfl

theorem serviceRequest_dead (k d c x s) : (serviceRequest k d c x s).dead = s.dead := by
  unfold serviceRequest; dsimp only; split
  · rfl
  · split <;> rfl

theorem queueRequest_dead (k d c x qm s) : (queueRequest k d c x qm s).dead = s.dead := by
  unfold queueRequest; dsimp only; split
  · simp only [add_dead]; split <;> rfl
  · split
    · simp only [add_dead]; split <;> rfl
    · simp only [add_dead, emit_dead]; split <;> rfl

theorem resourceRequest_dead (k d c x s) : (resourceRequest k d c x s).dead = s.dead := by
  unfold resourceRequest; split
  · rfl
  · simp only [add_dead, fake_dead]

theorem move_dead {s t} (h : Move s t) (hd : s.dead = true) : t.dead = true := by
  cases h
  case same h6 _ => rw [h6]; exact hd
  case die h => exact h
  case lost d _ => rw [lost_dead, hd]; rfl
  case service => rw [serviceRequest_dead]; exact hd
  case queue => rw [queueRequest_dead]; exact hd
  case resource => rw [resourceRequest_dead]; exact hd
  case noService => rw [fake_dead]; exact hd
  case made => rw [fake_dead]; exact hd
  case queueSend => exact (queueSend_dead ..).trans hd
  case branchQueueSend => exact (queueSend_dead ..).trans hd
  all_goals exact hd

/-- What each move of a process that lives on keeps, is kept, as long as it lives. -/
theorem inv_alive {P : State → Prop} (h0 : P {}) (hp : ∀ s t, Move s t → t.dead = false → P s → P t) (es : List Event)
    (he : ∀ e ∈ es, sound e = true) (ha : (run es).dead = false) : P (run es) := by
  refine inv_moves (P := fun s => s.dead = false → P s) (fun _ => h0) (fun s t h hs hd => hp s t h hd (hs ?_)) es he ha
  cases hs' : s.dead with
  | false => rfl
  | true => rw [move_dead h hs'] at hd; cases hd

end Casual.Gateway.In
