import Verif.SForward.Model
/-
  What is relied on of the service forward.
-/
namespace Casual.SForward

/-! ### Specification -/

/-- The calls that arrive before the forward is told to shut down. -/
def heard (es : List Ev) : List Req :=
  (es.takeWhile fun e => match e with | .shutdown _ => false | _ => true).filterMap fun e => match e with | .call r _ => some r | _ => none

/-- A call, with this correlation, whose caller waits for a reply. -/
def asks (c : Nat) (r : Req) : Bool := r.corr == c && !r.noReply

/-- This is the call that somebody waits for a reply to. -/
def isCall (c : Nat) (x : Dest × Out) : Bool := match x.2 with | .call r => asks c r | _ => false

/-- This is a call with this correlation. -/
def isAny (c : Nat) (x : Dest × Out) : Bool := match x.2 with | .call r => r.corr == c | _ => false

/-- This is an error reply to the call. -/
def isError (c : Nat) (x : Dest × Out) : Bool := match x.2 with | .error k _ => k == c | _ => false

/-- All that the forward has sent, or tried to send. -/
def State.all (st : State) : List (Dest × Out) := st.sent ++ st.lost ++ st.wait

/-- The calls that the forward waits for a service to. -/
def State.held (st : State) : List Req := if st.running then st.pending else []

/-! ### Sending -/

/-- Calls that are on their way, and error replies. -/
def V (c : Nat) (st : State) : Nat := st.sent.countP (isCall c) + st.wait.countP (isCall c) + st.all.countP (isError c)

theorem count_split (p : Dest × Out → Bool) (l : List (Dest × Out)) (d : Dest) :
    (l.filter (·.1 = d)).countP p + (l.filter (·.1 ≠ d)).countP p = l.countP p := by
  induction l with
  | nil => rfl
  | cons x l ih =>
    by_cases e : x.1 = d
    · have h1 : (x :: l).filter (·.1 = d) = x :: l.filter (·.1 = d) := List.filter_cons_of_pos (by simp [e])
      have h2 : (x :: l).filter (·.1 ≠ d) = l.filter (·.1 ≠ d) := List.filter_cons_of_neg (by simp [e])
      rw [h1, h2, List.countP_cons, List.countP_cons]
      omega
    · have h1 : (x :: l).filter (·.1 = d) = l.filter (·.1 = d) := List.filter_cons_of_neg (by simp [e])
      have h2 : (x :: l).filter (·.1 ≠ d) = x :: l.filter (·.1 ≠ d) := List.filter_cons_of_pos (by simp [e])
      rw [h1, h2, List.countP_cons, List.countP_cons]
      omega

theorem all_count (p : Dest × Out → Bool) (st : State) : st.all.countP p = st.sent.countP p + st.lost.countP p + st.wait.countP p := by
  unfold State.all; simp only [List.countP_append]

theorem flush_all (net : Dest → Net) (st : State) (d : Dest) (p : Dest × Out → Bool) : (flush net st d).all.countP p = st.all.countP p := by
  rw [all_count, all_count]
  have := count_split p st.wait d
  unfold flush
  split
  · simp only [List.countP_append]; omega
  · rfl
  · simp only [List.countP_append]; omega

theorem flush_V (net : Dest → Net) (st : State) (d : Dest) (c : Nat) : V c (flush net st d) + (losses net st d).countP (isCall c) = V c st := by
  unfold V
  rw [flush_all]
  have := count_split (isCall c) st.wait d
  unfold flush losses
  cases net d with
  | ready => simp only [List.countP_append, reduceCtorEq, if_false, List.countP_nil]; omega
  | blocked => simp only [reduceCtorEq, if_false, List.countP_nil]; omega
  | gone => simp only [if_true]; omega

theorem post1_all (net : Dest → Net) (st : State) (x : Dest × Out) (p : Dest × Out → Bool) : (post1 net st x).all.countP p = st.all.countP p + (if p x then 1 else 0) := by
  rw [all_count, all_count]
  unfold post1
  split
  · simp only [List.countP_append, List.countP_singleton]; omega
  · split <;> simp only [List.countP_append, List.countP_singleton] <;> omega

theorem post1_V (net : Dest → Net) (st : State) (x : Dest × Out) (c : Nat) (h : isCall c x = false) : V c (post1 net st x) = V c st + (if isError c x then 1 else 0) := by
  unfold V
  rw [post1_all]
  have : (post1 net st x).sent.countP (isCall c) + (post1 net st x).wait.countP (isCall c) = st.sent.countP (isCall c) + st.wait.countP (isCall c) := by
    unfold post1
    split
    · simp [List.countP_append, h]
    · split <;> simp [List.countP_append, h]
  omega

theorem posts1_V (net : Dest → Net) (c : Nat) (l : List (Dest × Out)) (st : State) (h : ∀ x ∈ l, isCall c x = false) :
    V c (l.foldl (post1 net) st) = V c st + l.countP (isError c) := by
  induction l generalizing st with
  | nil => rfl
  | cons x l ih =>
    rw [List.foldl_cons, ih _ fun y hy => h y (by simp [hy]), post1_V net st x c (h x (by simp)), List.countP_cons]
    omega

theorem posts1_all (net : Dest → Net) (p : Dest × Out → Bool) (l : List (Dest × Out)) (st : State) :
    (l.foldl (post1 net) st).all.countP p = st.all.countP p + l.countP p := by
  induction l generalizing st with
  | nil => rfl
  | cons x l ih =>
    rw [List.foldl_cons, ih, post1_all, List.countP_cons]
    omega

theorem answers_call (r : Req) (k : Code) (c : Nat) : ∀ x ∈ answers r k, isCall c x = false := by
  intro x hx
  unfold answers at hx
  split at hx
  · cases hx
  · rw [List.mem_singleton.1 hx]; rfl

theorem answers_count (r : Req) (k : Code) (c : Nat) : (answers r k).countP (isError c) = if asks c r then 1 else 0 := by
  unfold answers asks
  cases h : r.noReply
  · simp [isError]
  · simp

theorem callback_call (c : Nat) (z : Dest × Out) : ∀ x ∈ callback z, isCall c x = false := by
  intro x hx
  unfold callback at hx
  split at hx
  · exact answers_call _ _ c x hx
  · cases hx

theorem callback_count (c : Nat) (l : List (Dest × Out)) : (l.flatMap callback).countP (isError c) = l.countP (isCall c) := by
  induction l with
  | nil => rfl
  | cons x l ih =>
    rw [List.flatMap_cons, List.countP_append, ih, List.countP_cons]
    obtain ⟨d, o⟩ := x
    cases o with
    | call r =>
      have : (callback (d, .call r)).countP (isError c) = if asks c r then 1 else 0 := answers_count r .noEntry c
      rw [this]
      show _ = _ + (if asks c r = true then 1 else 0)
      omega
    | lookup a b e => simp [callback, isCall]
    | discard a => simp [callback, isCall]
    | error a b => simp [callback, isCall]

theorem touch_V (net : Dest → Net) (st : State) (d : Dest) (c : Nat) : V c (touch net st d) = V c st := by
  unfold touch
  rw [posts1_V, callback_count, flush_V]
  intro x hx
  obtain ⟨z, _, hz⟩ := List.mem_flatMap.1 hx
  exact callback_call c z x hz

theorem post_V (net : Dest → Net) (st : State) (x : Dest × Out) (c : Nat) :
    V c (post net st x) = V c st + (if isCall c x then 1 else 0) + (if isError c x then 1 else 0) := by
  unfold post
  rw [touch_V]
  unfold V
  rw [all_count, all_count]
  simp only [List.countP_append, List.countP_singleton]
  omega

theorem posts_V (net : Dest → Net) (c : Nat) (l : List (Dest × Out)) (st : State) (h : ∀ x ∈ l, isCall c x = false) :
    V c (l.foldl (post net) st) = V c st + l.countP (isError c) := by
  induction l generalizing st with
  | nil => rfl
  | cons x l ih =>
    rw [List.foldl_cons, ih _ fun y hy => h y (by simp [hy]), post_V, h x (by simp), List.countP_cons]
    simp
    omega

/-- What is no error reply is not sent by callbacks. -/
def Plain (p : Dest × Out → Bool) : Prop := ∀ d c k, p (d, .error c k) = false

theorem answers_plain {p : Dest × Out → Bool} (hp : Plain p) (r : Req) (k : Code) : (answers r k).countP p = 0 := by
  unfold answers
  split
  · rfl
  · rw [List.countP_singleton, hp]; rfl

theorem callback_plain {p : Dest × Out → Bool} (hp : Plain p) (l : List (Dest × Out)) : (l.flatMap callback).countP p = 0 := by
  induction l with
  | nil => rfl
  | cons x l ih =>
    rw [List.flatMap_cons, List.countP_append, ih]
    unfold callback
    split
    · rw [answers_plain hp]
    · rfl

theorem post_all {p : Dest × Out → Bool} (hp : Plain p) (net : Dest → Net) (st : State) (x : Dest × Out) :
    (post net st x).all.countP p = st.all.countP p + (if p x then 1 else 0) := by
  unfold post touch
  rw [posts1_all, flush_all, callback_plain hp, all_count, all_count]
  simp only [List.countP_append, List.countP_singleton]
  omega

theorem touch_all {p : Dest × Out → Bool} (hp : Plain p) (net : Dest → Net) (st : State) (d : Dest) : (touch net st d).all.countP p = st.all.countP p := by
  unfold touch
  rw [posts1_all, flush_all, callback_plain hp]
  omega

theorem posts_all {p : Dest × Out → Bool} (hp : Plain p) (net : Dest → Net) (l : List (Dest × Out)) (st : State) :
    (l.foldl (post net) st).all.countP p = st.all.countP p + l.countP p := by
  induction l generalizing st with
  | nil => rfl
  | cons x l ih =>
    rw [List.foldl_cons, ih, post_all hp, List.countP_cons]
    omega

/-! ### Sending changes nothing else -/

theorem post1_rest (net : Dest → Net) (st : State) (x : Dest × Out) : (post1 net st x).pending = st.pending ∧ (post1 net st x).running = st.running := by
  unfold post1
  split
  · exact ⟨rfl, rfl⟩
  · split <;> exact ⟨rfl, rfl⟩

theorem posts1_rest (net : Dest → Net) (l : List (Dest × Out)) (st : State) :
    (l.foldl (post1 net) st).pending = st.pending ∧ (l.foldl (post1 net) st).running = st.running := by
  induction l generalizing st with
  | nil => exact ⟨rfl, rfl⟩
  | cons x l ih =>
    have h1 := post1_rest net st x
    have h2 := ih (post1 net st x)
    exact ⟨h2.1.trans h1.1, h2.2.trans h1.2⟩

theorem touch_rest (net : Dest → Net) (st : State) (d : Dest) : (touch net st d).pending = st.pending ∧ (touch net st d).running = st.running := by
  have h1 := posts1_rest net ((losses net st d).flatMap callback) (flush net st d)
  have h2 : (flush net st d).pending = st.pending ∧ (flush net st d).running = st.running := by
    unfold flush
    split <;> exact ⟨rfl, rfl⟩
  exact ⟨h1.1.trans h2.1, h1.2.trans h2.2⟩

theorem post_rest (net : Dest → Net) (st : State) (x : Dest × Out) : (post net st x).pending = st.pending ∧ (post net st x).running = st.running :=
  touch_rest net { st with wait := st.wait ++ [x] } x.1

theorem posts_rest (net : Dest → Net) (l : List (Dest × Out)) (st : State) :
    (l.foldl (post net) st).pending = st.pending ∧ (l.foldl (post net) st).running = st.running := by
  induction l generalizing st with
  | nil => exact ⟨rfl, rfl⟩
  | cons x l ih =>
    have h1 := post_rest net st x
    have h2 := ih (post net st x)
    exact ⟨h2.1.trans h1.1, h2.2.trans h1.2⟩

theorem shutdown_rest (net : Dest → Net) (st : State) : (onShutdown net st).running = false ∧ (onShutdown net st).pending = st.pending := by
  unfold onShutdown
  dsimp only
  refine ⟨?_, ?_⟩
  · rw [(posts_rest _ _ _).2, (posts_rest _ _ _).2]
  · rw [(posts_rest _ _ _).1, (posts_rest _ _ _).1]

theorem reply_running (net : Dest → Net) (st : State) (l : Lookup) : (onReply net st l).running = st.running := by
  unfold onReply
  split
  · rfl
  · dsimp only
    split
    · rw [(posts_rest _ _ _).2]
    · rw [(post_rest _ _ _).2]

theorem call_running (net : Dest → Net) (st : State) (r : Req) : (onCall net st r).running = st.running := (post_rest _ _ _).2

/-! ### What has been heard -/

/-- One more event. -/
theorem heard_step (es : List Ev) (e : Ev) : heard (e :: es) = match e with | .call r _ => r :: heard es | .shutdown _ => [] | _ => heard es := by
  unfold heard
  cases e <;> simp [List.takeWhile_cons]

theorem stopped (es : List Ev) (st : State) (h : st.running = false) : es.foldl step st = st := by
  induction es with
  | nil => rfl
  | cons e es ih =>
    rw [List.foldl_cons]
    have : step st e = st := by unfold step; rw [if_pos h]
    rw [this]
    exact ih

theorem count_eraseP {α} (p q : α → Bool) (l : List α) (r : α) (h : l.find? p = some r) : l.countP q = (l.eraseP p).countP q + (if q r then 1 else 0) := by
  induction l with
  | nil => cases h
  | cons x l ih =>
    rw [List.find?_cons] at h
    cases hx : p x with
    | true =>
      rw [hx] at h
      simp only at h
      have h := Option.some.inj h
      rw [List.eraseP_cons_of_pos hx, List.countP_cons, h]
    | false =>
      rw [hx] at h
      simp only at h
      rw [List.eraseP_cons_of_neg (by simp [hx]), List.countP_cons, List.countP_cons, ih h]
      omega

theorem owed_step (c : Nat) (net : Dest → Net) (st : State) (l : Lookup) : (onReply net st l).pending.countP (asks c) + V c (onReply net st l) = st.pending.countP (asks c) + V c st := by
  unfold onReply
  split
  · rfl
  · rename_i r hr
    have h1 := count_eraseP _ (asks c) _ _ hr
    dsimp only
    split
    · rw [(posts_rest _ _ _).1, posts_V _ _ _ _ (answers_call _ _ c), answers_count]
      have : asks c { r with service := l.service } = asks c r := rfl
      rw [this]
      show List.countP (asks c) (List.eraseP _ st.pending) + (V c st + _) = _
      omega
    · rw [(post_rest _ _ _).1, post_V]
      have h2 : isCall c (Dest.proc l.process, Out.call { r with service := l.service }) = asks c r := rfl
      have h3 : isError c (Dest.proc l.process, Out.call { r with service := l.service }) = false := rfl
      rw [h2, h3]
      show List.countP (asks c) (List.eraseP _ st.pending) + (V c st + _ + _) = _
      simp only [Bool.false_eq_true, if_false]
      omega

theorem discards_V (c : Nat) (l : List Req) : (∀ x ∈ l.map fun r => (Dest.manager, Out.discard r.corr), isCall c x = false)
    ∧ (l.map fun r => (Dest.manager, Out.discard r.corr)).countP (isError c) = 0 := by
  constructor
  · intro x hx
    obtain ⟨r, _, rfl⟩ := List.mem_map.1 hx
    rfl
  · rw [List.countP_eq_zero]
    intro x hx
    obtain ⟨r, _, rfl⟩ := List.mem_map.1 hx
    simp [isError]

theorem all_answers (c : Nat) (k : Code) (l : List Req) : (l.flatMap fun r => answers r k).countP (isError c) = l.countP (asks c) := by
  induction l with
  | nil => rfl
  | cons r l ih =>
    rw [List.flatMap_cons, List.countP_append, ih, List.countP_cons, answers_count]
    omega

theorem shutdown_V (c : Nat) (net : Dest → Net) (st : State) : V c (onShutdown net st) = V c st + st.pending.countP (asks c) := by
  unfold onShutdown
  dsimp only
  rw [posts_V, posts_V, all_answers, (discards_V c _).2]
  · rfl
  · exact (discards_V c _).1
  · intro x hx
    obtain ⟨r, _, hx⟩ := List.mem_flatMap.1 hx
    exact answers_call _ _ c x hx

/-- Each call with a caller that waits for a reply, that arrives before the shutdown, is exactly one of: held until there is a service, on its way to (or
at) an instance of the service, or answered with an error; and just once. -/
theorem each_call_once (es : List Ev) (c : Nat) :
    (heard es).countP (asks c) = (run es).held.countP (asks c) + (run es).sent.countP (isCall c) + (run es).wait.countP (isCall c)
      + (run es).all.countP (isError c) := by
  have main : ∀ (es : List Ev) (st : State), st.running = true →
      st.pending.countP (asks c) + V c st + (heard es).countP (asks c) = (es.foldl step st).held.countP (asks c) + V c (es.foldl step st) := by
    intro es
    induction es with
    | nil =>
      intro st h
      unfold State.held
      rw [List.foldl_nil, if_pos h]
      simp [heard]
    | cons e es ih =>
      intro st h
      rw [heard_step, List.foldl_cons]
      have hs : step st e = match e with | .call r net => onCall net st r | .reply l net => onReply net st l | .shutdown net => onShutdown net st | .writable d net => touch net st d := by
        unfold step; rw [if_neg (by simp [h])]; cases e <;> rfl
      cases e with
      | call r net =>
        rw [hs, ← ih (onCall net st r) ((call_running net st r).trans h)]
        unfold onCall
        dsimp only
        rw [(post_rest _ _ _).1, List.countP_append, List.countP_singleton, List.countP_cons]
        have := post_V net st (.manager, .lookup r.corr r.service.name none) c
        simp only [isCall, isError, Bool.false_eq_true, if_false, Nat.add_zero] at this
        have h2 : V c { (post net st (.manager, .lookup r.corr r.service.name none)) with pending := st.pending ++ [r] }
            = V c (post net st (.manager, .lookup r.corr r.service.name none)) := rfl
        rw [h2, this]
        omega
      | reply l net =>
        rw [hs, ← ih (onReply net st l) ((reply_running net st l).trans h)]
        have := owed_step c net st l
        dsimp only
        omega
      | shutdown net =>
        rw [hs]
        dsimp only
        rw [stopped _ _ (shutdown_rest net st).1]
        unfold State.held
        rw [if_neg (by simp [(shutdown_rest net st).1]), shutdown_V]
        simp
        omega
      | writable d net =>
        rw [hs, ← ih (touch net st d) ((touch_rest net st d).2.trans h)]
        dsimp only
        rw [(touch_rest net st d).1, touch_V]
  have := main es {} rfl
  have h0 : V c ({} : State) = 0 := rfl
  rw [h0] at this
  unfold V at this
  unfold run
  simp only [List.countP_nil] at this
  omega

/-- No call, whether somebody waits for a reply or not, is passed on twice: it is held, or an attempt to pass it on has been done, once. -/
theorem passed_once (es : List Ev) (c : Nat) :
    (run es).held.countP (·.corr == c) + (run es).all.countP (isAny c) ≤ (heard es).countP (·.corr == c) := by
  have hp : Plain (isAny c) := fun _ _ _ => rfl
  have main : ∀ (es : List Ev) (st : State), st.running = true →
      (es.foldl step st).held.countP (·.corr == c) + (es.foldl step st).all.countP (isAny c)
        ≤ st.pending.countP (·.corr == c) + st.all.countP (isAny c) + (heard es).countP (·.corr == c) := by
    intro es
    induction es with
    | nil =>
      intro st h
      unfold State.held
      rw [List.foldl_nil, if_pos h]
      simp [heard]
    | cons e es ih =>
      intro st h
      rw [heard_step, List.foldl_cons]
      have hs : step st e = match e with | .call r net => onCall net st r | .reply l net => onReply net st l | .shutdown net => onShutdown net st | .writable d net => touch net st d := by
        unfold step; rw [if_neg (by simp [h])]; cases e <;> rfl
      cases e with
      | call r net =>
        rw [hs]
        refine Nat.le_trans (ih (onCall net st r) ((call_running net st r).trans h)) ?_
        unfold onCall
        dsimp only
        rw [(post_rest _ _ _).1, List.countP_append, List.countP_singleton, List.countP_cons]
        have := post_all hp net st (.manager, .lookup r.corr r.service.name none)
        simp only [isAny, Bool.false_eq_true, if_false, Nat.add_zero] at this
        have h2 : State.all { (post net st (.manager, .lookup r.corr r.service.name none)) with pending := st.pending ++ [r] }
            = (post net st (.manager, .lookup r.corr r.service.name none)).all := rfl
        rw [h2]
        have h3 : (post net st (.manager, .lookup r.corr r.service.name none)).all.countP (isAny c) = st.all.countP (isAny c) := this
        rw [h3]
        omega
      | reply l net =>
        rw [hs]
        refine Nat.le_trans (ih (onReply net st l) ((reply_running net st l).trans h)) ?_
        dsimp only
        suffices (onReply net st l).pending.countP (·.corr == c) + (onReply net st l).all.countP (isAny c) ≤ st.pending.countP (·.corr == c) + st.all.countP (isAny c) by omega
        unfold onReply
        split
        · exact Nat.le_refl _
        · rename_i r hr
          have h1 := count_eraseP _ (·.corr == c) _ _ hr
          dsimp only
          split
          · rw [(posts_rest _ _ _).1, posts_all hp, answers_plain hp]
            show List.countP _ (List.eraseP _ st.pending) + (st.all.countP (isAny c) + 0) ≤ _
            omega
          · rw [(post_rest _ _ _).1, post_all hp]
            have h2 : isAny c (Dest.proc l.process, Out.call { r with service := l.service }) = (r.corr == c) := rfl
            rw [h2]
            show List.countP _ (List.eraseP _ st.pending) + (st.all.countP (isAny c) + _) ≤ _
            omega
      | shutdown net =>
        rw [hs]
        dsimp only
        rw [stopped _ _ (shutdown_rest net st).1]
        unfold State.held
        rw [if_neg (by simp [(shutdown_rest net st).1])]
        unfold onShutdown
        dsimp only
        rw [posts_all hp, posts_all hp]
        have h1 : (st.pending.flatMap fun r => answers r .system).countP (isAny c) = 0 := by
          rw [List.countP_eq_zero]
          intro x hx
          obtain ⟨r, _, hx⟩ := List.mem_flatMap.1 hx
          unfold answers at hx
          split at hx
          · cases hx
          · rw [List.mem_singleton.1 hx]; simp [isAny]
        have h2 : (st.pending.map fun r => (Dest.manager, Out.discard r.corr)).countP (isAny c) = 0 := by
          rw [List.countP_eq_zero]
          intro x hx
          obtain ⟨r, _, rfl⟩ := List.mem_map.1 hx
          simp [isAny]
        rw [h1, h2]
        have h3 : ({ st with running := false } : State).all = st.all := rfl
        rw [h3]
        simp
      | writable d net =>
        rw [hs]
        refine Nat.le_trans (ih (touch net st d) ((touch_rest net st d).2.trans h)) ?_
        dsimp only
        rw [(touch_rest net st d).1, touch_all hp]
        exact Nat.le_refl _
  have := main es {} rfl
  have h0 : ({} : State).all.countP (isAny c) = 0 := rfl
  rw [h0] at this
  unfold run
  simp only [List.countP_nil] at this
  omega

end Casual.SForward
