import Verif.SForward.Props
/-
  What the forward sends, and why; and what it does not do.
-/
namespace Casual.SForward

/-! ### Specification -/

/-- What there is a reason to send: `H` are the calls that have arrived, `R` the replies to lookups, `S` if shutdown has been asked for, `L` what could not
be sent.
A lookup of the service of a call. A call, as it was but for what is known about the service, to the process that the lookup said. An error reply to
the caller of a call that wants a reply: at shutdown, when there is no such service, and when the call could not be sent. -/
def Reason (H : Req → Prop) (R : Lookup → Prop) (S : Prop) (L : List (Dest × Out)) (x : Dest × Out) : Prop :=
  match x.2 with
  | .lookup c n _ => x.1 = .manager ∧ ∃ r, H r ∧ r.corr = c ∧ r.service.name = n
  | .discard c => x.1 = .manager ∧ S ∧ ∃ r, H r ∧ r.corr = c
  | .call q => ∃ r l, H r ∧ R l ∧ l.corr = r.corr ∧ l.state ≠ .absent ∧ x.1 = .proc l.process ∧ q = { r with service := l.service }
  | .error c .system => S ∧ ∃ r, H r ∧ r.corr = c ∧ r.noReply = false ∧ x.1 = .proc r.caller
  | .error c .noEntry => (∃ r, H r ∧ r.corr = c ∧ r.noReply = false ∧ x.1 = .proc r.caller)
      ∧ ((∃ l, R l ∧ l.corr = c ∧ l.state = .absent) ∨ ∃ z ∈ L, ∃ q, z.2 = .call q ∧ q.corr = c)

/-! ### Proof -/

theorem Reason.mono {H : Req → Prop} {R : Lookup → Prop} {S : Prop} {L L' : List (Dest × Out)} {x : Dest × Out} (h : Reason H R S L x) (hL : ∀ z ∈ L, z ∈ L') :
    Reason H R S L' x := by
  obtain ⟨d, o⟩ := x
  cases o with
  | lookup c n e => exact h
  | discard c => exact h
  | call q => exact h
  | error c k =>
    cases k with
    | system => exact h
    | noEntry =>
      obtain ⟨h1, h2⟩ := h
      refine ⟨h1, h2.imp id ?_⟩
      rintro ⟨z, hz, h3⟩
      exact ⟨z, hL z hz, h3⟩

/-- All is sent for a reason. -/
def Inv (H : Req → Prop) (R : Lookup → Prop) (S : Prop) (st : State) : Prop := (∀ x ∈ st.all, Reason H R S st.lost x) ∧ ∀ r ∈ st.pending, H r

section
variable {H : Req → Prop} {R : Lookup → Prop} {S : Prop}

theorem mem_all {st : State} {x : Dest × Out} : x ∈ st.all ↔ x ∈ st.sent ∨ x ∈ st.lost ∨ x ∈ st.wait := by
  unfold State.all; simp only [List.mem_append, or_assoc]

theorem post1_inv (net : Dest → Net) (st : State) (x : Dest × Out) (h : Inv H R S st) (hx : Reason H R S st.lost x) :
    Inv H R S (post1 net st x) ∧ ∀ z ∈ st.lost, z ∈ (post1 net st x).lost := by
  have hL : ∀ z ∈ st.lost, z ∈ (post1 net st x).lost := by
    intro z hz
    unfold post1
    split
    · exact hz
    · split
      · exact hz
      · exact hz
      · exact List.mem_append_left _ hz
  refine ⟨⟨?_, ?_⟩, hL⟩
  · intro y hy
    have : y ∈ st.all ∨ y = x := by
      rw [mem_all] at hy
      rw [mem_all]
      unfold post1 at hy
      split at hy
      · simp only [List.mem_append, List.mem_singleton] at hy
        rcases hy with hy | hy | hy | hy
        · exact .inl (.inl hy)
        · exact .inl (.inr (.inl hy))
        · exact .inl (.inr (.inr hy))
        · exact .inr hy
      · split at hy <;> simp only [List.mem_append, List.mem_singleton] at hy
        · rcases hy with (hy | hy) | hy | hy
          · exact .inl (.inl hy)
          · exact .inr hy
          · exact .inl (.inr (.inl hy))
          · exact .inl (.inr (.inr hy))
        · rcases hy with hy | hy | hy | hy
          · exact .inl (.inl hy)
          · exact .inl (.inr (.inl hy))
          · exact .inl (.inr (.inr hy))
          · exact .inr hy
        · rcases hy with hy | (hy | hy) | hy
          · exact .inl (.inl hy)
          · exact .inl (.inr (.inl hy))
          · exact .inr hy
          · exact .inl (.inr (.inr hy))
    rcases this with hy | rfl
    · exact (h.1 y hy).mono hL
    · exact hx.mono hL
  · rw [(post1_rest net st x).1]
    exact h.2

theorem posts1_inv (net : Dest → Net) (l : List (Dest × Out)) (st : State) (h : Inv H R S st) (hx : ∀ x ∈ l, Reason H R S st.lost x) :
    Inv H R S (l.foldl (post1 net) st) := by
  induction l generalizing st with
  | nil => exact h
  | cons x l ih =>
    obtain ⟨h1, h2⟩ := post1_inv net st x h (hx x (by simp))
    exact ih _ h1 fun y hy => (hx y (by simp [hy])).mono h2

theorem flush_mem (net : Dest → Net) (st : State) (d : Dest) (x : Dest × Out) (h : x ∈ (flush net st d).all) : x ∈ st.all := by
  rw [mem_all] at *
  unfold flush at h
  split at h
  · simp only [List.mem_append, List.mem_filter] at h
    rcases h with (h | h) | h | h
    · exact .inl h
    · exact .inr (.inr h.1)
    · exact .inr (.inl h)
    · exact .inr (.inr h.1)
  · exact h
  · simp only [List.mem_append, List.mem_filter] at h
    rcases h with h | (h | h) | h
    · exact .inl h
    · exact .inr (.inl h)
    · exact .inr (.inr h.1)
    · exact .inr (.inr h.1)

theorem flush_lost (net : Dest → Net) (st : State) (d : Dest) : (flush net st d).lost = st.lost ++ losses net st d := by
  unfold flush losses
  cases net d <;> simp

theorem touch_inv (net : Dest → Net) (st : State) (d : Dest) (h : Inv H R S st) : Inv H R S (touch net st d) := by
  have h1 : Inv H R S (flush net st d) := by
    refine ⟨?_, ?_⟩
    · intro x hx
      rw [flush_lost]
      exact (h.1 x (flush_mem net st d x hx)).mono fun z hz => List.mem_append_left _ hz
    · intro r hr
      refine h.2 r ?_
      unfold flush at hr
      split at hr <;> exact hr
  unfold touch
  refine posts1_inv net _ _ h1 ?_
  intro y hy
  obtain ⟨z, hz, hy⟩ := List.mem_flatMap.1 hy
  have hz2 : z ∈ st.wait := by
    unfold losses at hz
    split at hz
    · exact (List.mem_filter.1 hz).1
    · cases hz
  have hr := h.1 z (mem_all.2 (.inr (.inr hz2)))
  obtain ⟨e, o⟩ := z
  unfold callback at hy
  cases o with
  | lookup c n e => cases hy
  | discard c => cases hy
  | error c k => cases hy
  | call q =>
    obtain ⟨r, l, g1, g2, g3, g4, g5, rfl⟩ := hr
    unfold answers at hy
    dsimp only at hy
    split at hy
    · cases hy
    · rename_i hn
      rw [List.mem_singleton.1 hy]
      refine ⟨⟨r, g1, rfl, by simpa using hn, rfl⟩, .inr ⟨(e, .call { r with service := l.service }), ?_, _, rfl, rfl⟩⟩
      rw [flush_lost]
      exact List.mem_append_right _ hz

theorem post_inv (net : Dest → Net) (st : State) (x : Dest × Out) (h : Inv H R S st) (hx : Reason H R S st.lost x) : Inv H R S (post net st x) := by
  refine touch_inv net _ _ ⟨?_, h.2⟩
  intro y hy
  rw [mem_all] at hy
  simp only [List.mem_append, List.mem_singleton] at hy
  rcases hy with hy | hy | hy | hy
  · exact h.1 y (mem_all.2 (.inl hy))
  · exact h.1 y (mem_all.2 (.inr (.inl hy)))
  · exact h.1 y (mem_all.2 (.inr (.inr hy)))
  · rw [hy]; exact hx

theorem posts_inv (net : Dest → Net) (l : List (Dest × Out)) (st : State) (h : Inv H R S st) (hx : ∀ x ∈ l, Reason H R S [] x) : Inv H R S (l.foldl (post net) st) := by
  induction l generalizing st with
  | nil => exact h
  | cons x l ih => exact ih _ (post_inv net st x h ((hx x (by simp)).mono fun z hz => by cases hz)) fun y hy => hx y (by simp [hy])

theorem steps_inv (es : List Ev) : ∀ (st : State), st.running = true → (∀ r ∈ heard es, H r) → (∀ l net, Ev.reply l net ∈ es → R l) → (∀ net, Ev.shutdown net ∈ es → S)
    → Inv H R S st → Inv H R S (es.foldl step st) := by
  induction es with
  | nil => intro st _ _ _ _ h; exact h
  | cons e es ih =>
    intro st hr hH hR hS h
    rw [List.foldl_cons]
    have hs : step st e = match e with | .call r net => onCall net st r | .reply l net => onReply net st l | .shutdown net => onShutdown net st | .writable d net => touch net st d := by
      unfold step; rw [if_neg (by simp [hr])]; cases e <;> rfl
    rw [heard_step] at hH
    have hR' : ∀ l net, Ev.reply l net ∈ es → R l := fun l net hl => hR l net (List.mem_cons_of_mem _ hl)
    have hS' : ∀ net, Ev.shutdown net ∈ es → S := fun net hl => hS net (List.mem_cons_of_mem _ hl)
    cases e with
    | call r net =>
      rw [hs]
      have hr0 : H r := hH r (List.mem_cons_self ..)
      refine ih _ ((call_running net st r).trans hr) (fun r hr => hH r (List.mem_cons_of_mem _ hr)) hR' hS' ?_
      have := post_inv net st (.manager, .lookup r.corr r.service.name none) h ⟨rfl, r, hr0, rfl, rfl⟩
      refine ⟨this.1, ?_⟩
      intro q hq
      unfold onCall at hq
      dsimp only at hq
      rw [(post_rest _ _ _).1] at hq
      rcases List.mem_append.1 hq with hq | hq
      · exact h.2 q hq
      · rw [List.mem_singleton.1 hq]; exact hr0
    | reply l net =>
      rw [hs]
      refine ih _ ((reply_running net st l).trans hr) hH hR' hS' ?_
      have hl : R l := hR l net (List.mem_cons_self ..)
      dsimp only
      unfold onReply
      split
      · exact h
      · rename_i r hf
        have hm := List.mem_of_find?_eq_some hf
        have hc : r.corr = l.corr := by
          have := List.find?_some hf
          simpa using this
        have h2 : Inv H R S { st with pending := st.pending.eraseP (·.corr == l.corr) } :=
          ⟨h.1, fun q hq => h.2 q (List.eraseP_subset hq)⟩
        dsimp only
        split
        · rename_i ha
          refine posts_inv net _ _ h2 ?_
          intro x hx
          unfold answers at hx
          dsimp only at hx
          split at hx
          · cases hx
          · rename_i hn
            rw [List.mem_singleton.1 hx]
            exact ⟨⟨r, h.2 r hm, rfl, by simpa using hn, rfl⟩, .inl ⟨l, hl, hc.symm, ha⟩⟩
        · rename_i ha
          exact post_inv net _ _ h2 ⟨r, l, h.2 r hm, hl, hc.symm, ha, rfl, rfl⟩
    | shutdown net =>
      rw [hs]
      dsimp only
      rw [stopped _ _ (shutdown_rest net st).1]
      have hS0 : S := hS net (List.mem_cons_self ..)
      unfold onShutdown
      dsimp only
      refine posts_inv net _ _ (posts_inv net _ _ h ?_) ?_
      · intro x hx
        obtain ⟨r, hr, rfl⟩ := List.mem_map.1 hx
        exact ⟨rfl, hS0, r, h.2 r hr, rfl⟩
      · intro x hx
        obtain ⟨r, hr, hx⟩ := List.mem_flatMap.1 hx
        unfold answers at hx
        split at hx
        · cases hx
        · rename_i hn
          rw [List.mem_singleton.1 hx]
          exact ⟨hS0, r, h.2 r hr, rfl, by simpa using hn, rfl⟩
    | writable d net =>
      rw [hs]
      exact ih _ ((touch_rest net st d).2.trans hr) hH hR' hS' (touch_inv net st d h)

end

/-- All that the forward sends, it sends for a reason: lookups and calls that have arrived, unchanged, to where the lookup says; and errors only
to those that wait for a reply, and only when there is an error. -/
theorem sent_with_reason (es : List Ev) : ∀ x ∈ (run es).all, Reason (· ∈ heard es) (fun l => ∃ net, Ev.reply l net ∈ es) (∃ net, Ev.shutdown net ∈ es) (run es).lost x := by
  refine (steps_inv es {} rfl (fun _ h => h) (fun l net h => ⟨net, h⟩) (fun net h => ⟨net, h⟩) ⟨?_, ?_⟩).1
  · intro x hx; cases hx
  · intro x hx; cases hx

/-- This is the lookup for the call. -/
def isLookup (c n : Nat) (x : Dest × Out) : Bool := match x.2 with | .lookup k m _ => k == c && m == n | _ => false

/-- This is the discard of the lookup. -/
def isDiscard (c : Nat) (x : Dest × Out) : Bool := match x.2 with | .discard k => k == c | _ => false

theorem once {p : Dest × Out → Bool} (hp : Plain p) (hq : ∀ d r, p (d, .call r) = false) (f : Req → Bool) (hf : ∀ r, p (.manager, .lookup r.corr r.service.name none) = f r)
    (hd : ∀ r : Req, p (.manager, .discard r.corr) = false) (es : List Ev) : ∀ st : State, st.running = true → (es.foldl step st).all.countP p = st.all.countP p + (heard es).countP f := by
  induction es with
  | nil => intro st _; rfl
  | cons e es ih =>
    intro st h
    rw [heard_step, List.foldl_cons]
    have hs : step st e = match e with | .call r net => onCall net st r | .reply l net => onReply net st l | .shutdown net => onShutdown net st | .writable d net => touch net st d := by
      unfold step; rw [if_neg (by simp [h])]; cases e <;> rfl
    cases e with
    | call r net =>
      rw [hs, ih _ ((call_running net st r).trans h)]
      have := post_all hp net st (.manager, .lookup r.corr r.service.name none)
      rw [hf] at this
      dsimp only
      rw [List.countP_cons]
      show List.countP p (post net st _).all + _ = _
      omega
    | reply l net =>
      rw [hs, ih _ ((reply_running net st l).trans h)]
      have : (onReply net st l).all.countP p = st.all.countP p := by
        unfold onReply
        split
        · rfl
        · dsimp only
          split
          · rw [posts_all hp, answers_plain hp]; rfl
          · rw [post_all hp, hq]; rfl
      dsimp only
      omega
    | shutdown net =>
      rw [hs]
      dsimp only
      rw [stopped _ _ (shutdown_rest net st).1]
      unfold onShutdown
      dsimp only
      rw [posts_all hp, posts_all hp]
      have h1 : (st.pending.flatMap fun r => answers r .system).countP p = 0 := by
        rw [List.countP_eq_zero]
        intro x hx
        obtain ⟨r, _, hx⟩ := List.mem_flatMap.1 hx
        unfold answers at hx
        split at hx
        · cases hx
        · rw [List.mem_singleton.1 hx, hp]; simp
      have h2 : (st.pending.map fun r => (Dest.manager, Out.discard r.corr)).countP p = 0 := by
        rw [List.countP_eq_zero]
        intro x hx
        obtain ⟨r, _, rfl⟩ := List.mem_map.1 hx
        rw [hd]; simp
      rw [h1, h2]
      rfl
    | writable d net =>
      rw [hs, ih _ ((touch_rest net st d).2.trans h)]
      dsimp only
      rw [touch_all hp]

/-- The service of each call that arrives is looked up, once. -/
theorem looked_up_once (es : List Ev) (c n : Nat) : (run es).all.countP (isLookup c n) = (heard es).countP fun r => r.corr == c && r.service.name == n := by
  have := once (p := isLookup c n) (fun _ _ _ => rfl) (fun _ _ => rfl) (fun r => r.corr == c && r.service.name == n) (fun _ => rfl) (fun _ => rfl) es {} rfl
  have h0 : ({} : State).all.countP (isLookup c n) = 0 := rfl
  rw [h0, Nat.zero_add] at this
  exact this

/-- At shutdown each lookup that has had no reply is discarded, once; before that none is. -/
theorem discarded_once (es : List Ev) (c : Nat) :
    (run es).all.countP (isDiscard c) = if (run es).running then 0 else (run es).pending.countP (·.corr == c) := by
  have hp : Plain (isDiscard c) := fun _ _ _ => rfl
  have main : ∀ (es : List Ev) (st : State), st.running = true → st.all.countP (isDiscard c) = 0 →
      (es.foldl step st).all.countP (isDiscard c) = if (es.foldl step st).running then 0 else (es.foldl step st).pending.countP (·.corr == c) := by
    intro es
    induction es with
    | nil => intro st h h0; rw [List.foldl_nil, h, h0]; rfl
    | cons e es ih =>
      intro st h h0
      rw [List.foldl_cons]
      have hs : step st e = match e with | .call r net => onCall net st r | .reply l net => onReply net st l | .shutdown net => onShutdown net st | .writable d net => touch net st d := by
        unfold step; rw [if_neg (by simp [h])]; cases e <;> rfl
      cases e with
      | call r net =>
        rw [hs]
        refine ih _ ((call_running net st r).trans h) ?_
        have := post_all hp net st (.manager, .lookup r.corr r.service.name none)
        rw [h0] at this
        exact this
      | reply l net =>
        rw [hs]
        refine ih _ ((reply_running net st l).trans h) ?_
        dsimp only
        unfold onReply
        split
        · exact h0
        · dsimp only
          split
          · rw [posts_all hp, answers_plain hp]; exact h0
          · rw [post_all hp]; exact h0
      | shutdown net =>
        rw [hs]
        dsimp only
        rw [stopped _ _ (shutdown_rest net st).1, (shutdown_rest net st).1, (shutdown_rest net st).2]
        unfold onShutdown
        dsimp only
        rw [posts_all hp, posts_all hp]
        have h1 : (st.pending.flatMap fun r => answers r .system).countP (isDiscard c) = 0 := by
          rw [List.countP_eq_zero]
          intro x hx
          obtain ⟨r, _, hx⟩ := List.mem_flatMap.1 hx
          unfold answers at hx
          split at hx
          · cases hx
          · rw [List.mem_singleton.1 hx, hp]; simp
        rw [h1]
        have h2 : ({ st with running := false } : State).all = st.all := rfl
        rw [h2, h0, List.countP_map]
        simp only [Bool.false_eq_true, if_false, Nat.zero_add, Nat.add_zero]
        rfl
      | writable d net =>
        rw [hs]
        refine ih _ ((touch_rest net st d).2.trans h) ?_
        dsimp only
        rw [touch_all hp]
        exact h0
  exact main es {} rfl rfl

/-! ### All are told -/

/-- What happens to what is sent, in an event. -/
def Ev.net : Ev → Dest → Net
  | .call _ n => n
  | .reply _ n => n
  | .shutdown n => n
  | .writable _ n => n

theorem post1_wait {net : Dest → Net} (hn : ∀ d, net d ≠ .blocked) (st : State) (x : Dest × Out) (h : st.wait = []) : (post1 net st x).wait = [] := by
  unfold post1
  rw [if_neg (by simp [h])]
  split
  · exact h
  · rename_i hb; exact absurd hb (hn _)
  · exact h

theorem posts1_wait {net : Dest → Net} (hn : ∀ d, net d ≠ .blocked) (l : List (Dest × Out)) (st : State) (h : st.wait = []) : (l.foldl (post1 net) st).wait = [] := by
  induction l generalizing st with
  | nil => exact h
  | cons x l ih => exact ih _ (post1_wait hn st x h)

theorem post_wait {net : Dest → Net} (hn : ∀ d, net d ≠ .blocked) (st : State) (x : Dest × Out) (h : st.wait = []) : (post net st x).wait = [] := by
  unfold post touch
  refine posts1_wait hn _ _ ?_
  unfold flush
  split
  · simp [h]
  · rename_i hb; exact absurd hb (hn _)
  · simp [h]

theorem posts_wait {net : Dest → Net} (hn : ∀ d, net d ≠ .blocked) (l : List (Dest × Out)) (st : State) (h : st.wait = []) : (l.foldl (post net) st).wait = [] := by
  induction l generalizing st with
  | nil => exact h
  | cons x l ih => exact ih _ (post_wait hn st x h)

theorem touch_wait {net : Dest → Net} (hn : ∀ d, net d ≠ .blocked) (st : State) (d : Dest) (h : st.wait = []) : (touch net st d).wait = [] := by
  unfold touch
  refine posts1_wait hn _ _ ?_
  unfold flush
  split
  · simp [h]
  · exact h
  · simp [h]

/-- If nothing that is sent to is blocked, then after a shutdown each call that arrived before it, and whose caller waits for a reply, has been passed on, or
an error reply has been sent, or could not be sent as the caller is gone. -/
theorem all_told_partial (es : List Ev) (hn : ∀ e ∈ es, ∀ d, e.net d ≠ .blocked) (hs : (run es).running = false) (c : Nat) :
    (heard es).countP (asks c) = (run es).sent.countP (isCall c) + (run es).sent.countP (isError c) + (run es).lost.countP (isError c) := by
  have hw : ∀ (es : List Ev) (st : State), (∀ e ∈ es, ∀ d, e.net d ≠ .blocked) → st.wait = [] → (es.foldl step st).wait = [] := by
    intro es
    induction es with
    | nil => intro st _ h; exact h
    | cons e es ih =>
      intro st hn h
      rw [List.foldl_cons]
      refine ih _ (fun e he => hn e (by simp [he])) ?_
      have hn := hn e (by simp)
      unfold step
      split
      · exact h
      · cases e with
        | call r net => exact post_wait hn st _ h
        | reply l net =>
          dsimp only
          unfold onReply
          split
          · exact h
          · dsimp only
            split
            · exact posts_wait hn _ _ h
            · exact post_wait hn _ _ h
        | shutdown net => exact posts_wait hn _ _ (posts_wait hn _ _ h)
        | writable d net => exact touch_wait hn st d h
  have h1 := each_call_once es c
  have h2 : (run es).wait = [] := hw es {} hn rfl
  rw [all_count, h2] at h1
  unfold State.held at h1
  rw [hs] at h1
  simp only [Bool.false_eq_true, if_false, List.countP_nil] at h1
  omega

/-- A net where these destinations are gone, and those are blocked. -/
def nets (gone blocked : List Dest) (d : Dest) : Net := if d ∈ gone then .gone else if d ∈ blocked then .blocked else .ready

/-- Some call. -/
def someCall : Req := { corr := 1, caller := 10, service := { name := 5 }, noReply := false, deadline := some 30, payload := 7 }

/-- Some reply to its lookup. -/
def someReply : Lookup := { corr := 1, process := 20, service := { name := 5, rest := 3 }, deadline := some 2, state := .idle }

/-- The hypotheses are met: two calls, one is passed on, the other is answered at shutdown. -/
example : (∀ e ∈ [Ev.call someCall (nets [] []), .call { someCall with corr := 2 } (nets [] []), .reply someReply (nets [] []), .shutdown (nets [] [])], ∀ d, e.net d ≠ .blocked)
    ∧ (run [.call someCall (nets [] []), .call { someCall with corr := 2 } (nets [] []), .reply someReply (nets [] []), .shutdown (nets [] [])]).running = false
    ∧ (run [.call someCall (nets [] []), .call { someCall with corr := 2 } (nets [] []), .reply someReply (nets [] []), .shutdown (nets [] [])]).sent
      = [(.manager, .lookup 1 5 none), (.manager, .lookup 2 5 none), (.proc 20, .call { someCall with service := { name := 5, rest := 3 } }), (.manager, .discard 2),
        (.proc 10, .error 2 .system)] := by
  refine ⟨?_, by decide +kernel, by decide +kernel⟩
  intro e he d
  have hn : nets [] [] d ≠ .blocked := by simp [nets]
  simp only [List.mem_cons, List.not_mem_nil, or_false] at he
  rcases he with rfl | rfl | rfl | rfl <;> exact hn

/-! ### What is not so -/

/-- The forward shuts down while a call waits for the process that it should be passed on to: the call is passed on to nobody, and the caller, that waits for a reply, gets
none. -/
theorem told_at_shutdown_refuted :
    (run [.call someCall (nets [] []), .reply someReply (nets [] [.proc 20]), .shutdown (nets [] []), .writable (.proc 20) (nets [] [])]).sent.countP (fun x => isCall 1 x || isError 1 x) = 0 := by
  decide +kernel

/-- The same for all calls that are in the queue of the forward when it shuts down. -/
theorem told_after_shutdown_refuted (net : Dest → Net) : (run [.shutdown net, .call someCall net]).sent = [] := rfl

/-- What the service manager says about the deadline is not passed on: the call has the one it had, and the lookup has none. -/
theorem deadline_refuted : (run [.call someCall (nets [] []), .reply someReply (nets [] [])]).sent
    = [(.manager, .lookup 1 5 none), (.proc 20, .call { someCall with service := { name := 5, rest := 3 }, deadline := some 30 })] := by decide +kernel

/-- A lookup that takes too long is not answered with a timeout, but tried to be sent to nobody: the caller is told that there is no such service. -/
theorem timeout_refuted : (run [.call someCall (nets [] []), .reply { someReply with process := 0, state := .timeout } (nets [.proc 0] [])]).sent
    = [(.manager, .lookup 1 5 none), (.proc 10, .error 1 .noEntry)] := by decide +kernel

/-- What is passed on has the deadline it came with, whatever happens. -/
theorem deadline_partial (es : List Ev) (d : Dest) (q : Req) (h : (d, Out.call q) ∈ (run es).all) : ∃ r ∈ heard es, r.corr = q.corr ∧ q.deadline = r.deadline := by
  obtain ⟨r, l, h1, _, _, _, _, rfl⟩ := sent_with_reason es _ h
  exact ⟨r, h1, rfl, rfl⟩

end Casual.SForward
