import Verif.Http.Out
/-
  Every call is answered once, and told about once.
-/
namespace Casual.Http

/-- Is it the answer to a call with this correlation, to this caller? -/
def isReply (k : Nat × Nat) : Msg → Bool
  | .reply r => (r.dest, r.corr) == k
  | _ => false

/-- How many answers there have been. -/
def answers (st : State) (k : Nat × Nat) : Nat := st.out.countP (isReply k)

/-- How many are waiting for the http server. -/
def waiting (st : State) (k : Nat × Nat) : Nat := st.pending.countP fun r => (r.dest, r.corr) == k

/-- Is it a call with this correlation, from this caller? -/
def isCall (k : Nat × Nat) : Ev → Bool
  | .call c => (c.dest, c.corr) == k
  | _ => false

/-- How many calls there have been. -/
def calls (es : List Ev) (k : Nat × Nat) : Nat := es.countP (isCall k)

/-- Every call wants an answer. -/
def AllWant (es : List Ev) : Prop := ∀ c, Ev.call c ∈ es → c.noReply = false

theorem countP_cons' {α} (q : α → Bool) (a : α) (l : List α) : (a :: l).countP q = l.countP q + (q a).toNat := by
  rw [List.countP_cons]; cases q a <;> rfl

theorem countP_one {α} (q : α → Bool) (a : α) : [a].countP q = (q a).toNat := by
  rw [countP_cons']; exact Nat.zero_add _

theorem countP_eraseP {α} {p q : α → Bool} {l : List α} {r : α} (h : l.find? p = some r) :
    (l.eraseP p).countP q + (q r).toNat = l.countP q := by
  induction l with
  | nil => cases h
  | cons a l ih =>
    rw [List.find?_cons] at h
    by_cases hp : p a = true
    · rw [hp] at h
      cases h
      rw [List.eraseP_cons_of_pos hp, countP_cons']
    · have hp : p a = false := by simpa using hp
      rw [hp] at h
      rw [List.eraseP_cons_of_neg (by simp [hp]), countP_cons', countP_cons', ← ih h]
      omega

theorem find_none_eraseP {α} {p : α → Bool} {l : List α} (h : l.find? p = none) : l.eraseP p = l := by
  rw [List.find?_eq_none] at h
  exact List.eraseP_of_forall_not h

theorem countP_map_same {α} {q : α → Bool} {f : α → α} {l : List α} (h : ∀ a, q (f a) = q a) :
    (l.map f).countP q = l.countP q := by
  induction l with
  | nil => rfl
  | cons a l ih => rw [List.map_cons, countP_cons', countP_cons', ih, h]

theorem readReq_key (r : Req) (n : Nat) : (readReq r n).dest = r.dest ∧ (readReq r n).corr = r.corr := by
  unfold readReq; split <;> exact ⟨rfl, rfl⟩

theorem headerReq_key (r : Req) (n : Text) : (headerReq r n).dest = r.dest ∧ (headerReq r n).corr = r.corr := by
  unfold headerReq; dsimp only; split <;> exact ⟨rfl, rfl⟩

theorem answers_metricMaybe (st : State) (k : Nat × Nat) : answers (metricMaybe st) k = answers st k := by
  unfold metricMaybe
  split
  · unfold answers; simp [List.countP_append, isReply]
  · rfl

theorem waiting_metricMaybe (st : State) (k : Nat × Nat) : waiting (metricMaybe st) k = waiting st k := by
  unfold metricMaybe; split <;> rfl

theorem waiting_onReq (st : State) (h : Nat) (f : Req → Req) (hf : ∀ r, (f r).dest = r.dest ∧ (f r).corr = r.corr) (k : Nat × Nat) :
    waiting (onReq st h f) k = waiting st k := by
  unfold waiting onReq
  apply countP_map_same
  intro a
  split
  · rw [(hf a).1, (hf a).2]
  · rfl

theorem answer_key (cfg : Cfg) (r : Req) (a b : Int) : (answer cfg r a b).dest = r.dest ∧ (answer cfg r a b).corr = r.corr := by
  unfold answer
  dsimp only
  split
  · split <;> exact ⟨rfl, rfl⟩
  · exact ⟨rfl, rfl⟩

theorem metricMaybe_down (st : State) : (metricMaybe st).down = st.down := by
  unfold metricMaybe; split <;> rfl

theorem count_errorReply (st : State) (c : Call) (code : Int) (hc : c.noReply = false) (k : Nat × Nat) :
    answers (errorReply st c code) k + waiting (errorReply st c code) k
      = answers st k + waiting st k + ((c.dest, c.corr) == k).toNat := by
  unfold errorReply
  dsimp only
  rw [answers_metricMaybe, waiting_metricMaybe, hc]
  simp only [Bool.false_eq_true, if_false]
  unfold answers waiting
  rw [List.countP_append, countP_one]
  simp only [isReply]
  omega

theorem step_count (st : State) (e : Ev) (hw : ∀ c, e = .call c → c.noReply = false) (hd : (step st e).down = false) (k : Nat × Nat) :
    answers (step st e) k + waiting (step st e) k = answers st k + waiting st k + (isCall k e).toNat := by
  have hst : st.down = false := by
    cases h : st.down with
    | false => rfl
    | true => unfold step at hd; rw [if_pos h] at hd; exact h ▸ hd
  unfold step at hd ⊢
  rw [if_neg (by simp [hst])] at hd ⊢
  cases e with
  | call c =>
    simp only at hd ⊢
    have hc := hw c rfl
    unfold onCall
    simp only [isCall]
    split
    · exact count_errorReply st c _ hc k
    · split
      · exact count_errorReply st c _ hc k
      · unfold answers waiting
        rw [List.countP_append, countP_one]
        simp only [prepare]
        omega
  | discover d ns =>
    unfold onDiscover
    simp only [isCall]
    unfold answers waiting
    rw [List.countP_append, countP_one]
    simp [isReply]
  | read h n =>
    simp only [isCall]
    split
    · simp
    · have := waiting_onReq st h (readReq · n) (readReq_key · n) k
      exact congrArg (answers st k + ·) this
  | header h l =>
    have := waiting_onReq st h (headerReq · l) (headerReq_key · l) k
    exact congrArg (answers st k + ·) this
  | body h bs =>
    have := waiting_onReq st h (bodyReq · bs) (fun _ => ⟨rfl, rfl⟩) k
    exact congrArg (answers st k + ·) this
  | done h ok s =>
    simp only [isCall] at hd ⊢
    unfold onDone at hd ⊢
    cases hf : st.pending.find? (·.handle == h) with
    | none => simp
    | some r =>
      rw [hf] at hd
      dsimp only at hd ⊢
      have hcount := countP_eraseP (q := fun r => (r.dest, r.corr) == k) hf
      cases hcode : codeOf r ok s with
      | none => rw [hcode] at hd; exact absurd hd (by simp)
      | some c =>
        dsimp only
        rw [answers_metricMaybe, waiting_metricMaybe]
        unfold answers waiting
        rw [List.countP_append, countP_one]
        simp only [isReply, (answer_key st.cfg r c.1 c.2).1, (answer_key st.cfg r c.1 c.2).2]
        rw [← hcount]
        simp
        omega

theorem down_stays (st : State) (es : List Ev) (h : st.down = true) : run st es = st := by
  induction es with
  | nil => rfl
  | cons e es ih =>
    show run (step st e) es = st
    have : step st e = st := by unfold step; rw [if_pos h]
    rw [this, ih]

theorem down_before {st : State} {e : Ev} {es : List Ev} (h : (run st (e :: es)).down = false) : (step st e).down = false := by
  cases hd : (step st e).down with
  | false => rfl
  | true =>
    have : run (step st e) es = step st e := down_stays _ _ hd
    have h : (run (step st e) es).down = false := h
    rw [this, hd] at h
    exact absurd h (by decide)

theorem run_count (st : State) (es : List Ev) (hw : AllWant es) (hd : (run st es).down = false) (k : Nat × Nat) :
    answers (run st es) k + waiting (run st es) k = answers st k + waiting st k + calls es k := by
  induction es generalizing st with
  | nil => rfl
  | cons e es ih =>
    have h1 := step_count st e (fun c hc => hw c (hc ▸ List.mem_cons_self)) (down_before hd) k
    have h2 := ih (step st e) (fun c hc => hw c (List.mem_cons_of_mem _ hc)) hd
    have h3 : calls (e :: es) k = calls es k + (isCall k e).toNat := by
      unfold calls; rw [countP_cons']
    have h2 : answers (run st (e :: es)) k + waiting (run st (e :: es)) k
      = answers (step st e) k + waiting (step st e) k + calls es k := h2
    omega

/-! ### Metrics -/

/-- How many times a call with this correlation has been told about. -/
def told (st : State) (corr : Nat) : Nat :=
  (st.out.map fun m => match m with | .metrics ms => ms.countP fun m => m.corr == corr | _ => 0).sum

/-- What is not yet told. -/
def untold (st : State) (corr : Nat) : Nat := st.held.countP fun m => m.corr == corr

/-- How many with this correlation are waiting for the http server. -/
def waitingCorr (st : State) (corr : Nat) : Nat := st.pending.countP fun r => r.corr == corr

/-- How many calls with this correlation there have been. -/
def callsCorr (es : List Ev) (corr : Nat) : Nat :=
  es.countP fun e => match e with | .call c => c.corr == corr | _ => false

/-- Nothing is held back if there is nothing to wait for, and never as many as a full batch. -/
def Prompt (st : State) : Prop := (st.pending = [] → st.held = []) ∧ st.held.length < batch

theorem metricMaybe_told (st : State) (c : Nat) :
    told (metricMaybe st) c + untold (metricMaybe st) c = told st c + untold st c := by
  unfold metricMaybe
  split
  · unfold told untold
    simp
  · rfl

theorem metricMaybe_prompt (st : State) : Prompt (metricMaybe st) := by
  unfold metricMaybe
  split
  · exact ⟨fun _ => rfl, by show 0 < 100; omega⟩
  · rename_i h
    refine ⟨fun hp => absurd (Or.inl hp) h, ?_⟩
    have : ¬ batch ≤ st.held.length := fun hb => h (Or.inr hb)
    omega

theorem metricMaybe_pending (st : State) : (metricMaybe st).pending = st.pending := by
  unfold metricMaybe; split <;> rfl

theorem errorReply_prompt (st : State) (c : Call) (code : Int) : Prompt (errorReply st c code) := by
  unfold errorReply; exact metricMaybe_prompt _

theorem errorReply_told (st : State) (c : Call) (code : Int) (k : Nat) :
    told (errorReply st c code) k + untold (errorReply st c code) k + waitingCorr (errorReply st c code) k
      = told st k + untold st k + waitingCorr st k + (c.corr == k).toNat := by
  unfold errorReply
  dsimp only
  rw [metricMaybe_told]
  unfold waitingCorr
  rw [metricMaybe_pending]
  unfold told untold
  rw [List.countP_append, countP_one]
  cases c.noReply <;> simp <;> omega

theorem waitingCorr_onReq (st : State) (h : Nat) (f : Req → Req) (hf : ∀ r, (f r).dest = r.dest ∧ (f r).corr = r.corr) (k : Nat) :
    waitingCorr (onReq st h f) k = waitingCorr st k := by
  unfold waitingCorr onReq
  apply countP_map_same
  intro a
  split
  · rw [(hf a).2]
  · rfl

theorem step_told (st : State) (e : Ev) (hd : (step st e).down = false) (k : Nat) :
    told (step st e) k + untold (step st e) k + waitingCorr (step st e) k
      = told st k + untold st k + waitingCorr st k + callsCorr [e] k := by
  have hst : st.down = false := by
    cases h : st.down with
    | false => rfl
    | true => unfold step at hd; rw [if_pos h] at hd; exact h ▸ hd
  have hsing : ∀ e, callsCorr [e] k = (match e with | .call c => c.corr == k | _ => false).toNat := by
    intro e; unfold callsCorr; rw [countP_one]
  rw [hsing]
  unfold step at hd ⊢
  rw [if_neg (by simp [hst])] at hd ⊢
  cases e with
  | call c =>
    simp only at hd ⊢
    unfold onCall
    split
    · exact errorReply_told st c _ k
    · split
      · exact errorReply_told st c _ k
      · unfold told untold waitingCorr
        rw [List.countP_append, countP_one]
        simp only [prepare]
        omega
  | discover d ns =>
    unfold onDiscover told untold waitingCorr
    simp
  | read h n =>
    simp only
    split
    · simp
    · exact congrArg (told st k + untold st k + ·) (waitingCorr_onReq st h (readReq · n) (readReq_key · n) k)
  | header h l => exact congrArg (told st k + untold st k + ·) (waitingCorr_onReq st h (headerReq · l) (headerReq_key · l) k)
  | body h bs => exact congrArg (told st k + untold st k + ·) (waitingCorr_onReq st h (bodyReq · bs) (fun _ => ⟨rfl, rfl⟩) k)
  | done h ok s =>
    simp only at hd ⊢
    unfold onDone at hd ⊢
    cases hf : st.pending.find? (·.handle == h) with
    | none => simp
    | some r =>
      rw [hf] at hd
      dsimp only at hd ⊢
      have hcount := countP_eraseP (q := fun r => r.corr == k) hf
      cases hcode : codeOf r ok s with
      | none => rw [hcode] at hd; exact absurd hd (by simp)
      | some c =>
        dsimp only
        rw [metricMaybe_told]
        unfold waitingCorr
        rw [metricMaybe_pending]
        unfold told untold
        rw [List.countP_append, countP_one]
        simp only [List.map_append, List.map_cons, List.map_nil, List.sum_append_nat, List.sum_cons, List.sum_nil, Bool.toNat_false]
        omega

theorem step_prompt (st : State) (e : Ev) (h : Prompt st) (hd : (step st e).down = false) : Prompt (step st e) := by
  unfold step at hd ⊢
  split
  · exact h
  · rename_i hst
    rw [if_neg hst] at hd
    cases e with
    | call c =>
      simp only
      unfold onCall
      split
      · exact errorReply_prompt _ _ _
      · split
        · exact errorReply_prompt _ _ _
        · exact ⟨fun hp => absurd hp (by simp), h.2⟩
    | discover d ns => exact h
    | read hh n =>
      simp only
      split
      · exact h
      · refine ⟨fun hp => h.1 ?_, h.2⟩
        exact List.map_eq_nil_iff.1 hp
    | header hh l => exact ⟨fun hp => h.1 (List.map_eq_nil_iff.1 hp), h.2⟩
    | body hh l => exact ⟨fun hp => h.1 (List.map_eq_nil_iff.1 hp), h.2⟩
    | done hh ok s =>
      simp only at hd ⊢
      unfold onDone at hd ⊢
      cases hf : st.pending.find? (·.handle == hh) with
      | none => exact h
      | some r =>
        rw [hf] at hd
        dsimp only at hd ⊢
        cases hcode : codeOf r ok s with
        | none => rw [hcode] at hd; exact absurd hd (by simp)
        | some c => exact metricMaybe_prompt _

theorem run_told (st : State) (es : List Ev) (hp : Prompt st) (hd : (run st es).down = false) (k : Nat) :
    told (run st es) k + untold (run st es) k + waitingCorr (run st es) k
      = told st k + untold st k + waitingCorr st k + callsCorr es k ∧ Prompt (run st es) := by
  induction es generalizing st with
  | nil => exact ⟨rfl, hp⟩
  | cons e es ih =>
    have hd1 := down_before hd
    have h1 := step_told st e hd1 k
    have h2 := ih (step st e) (step_prompt st e hp hd1) hd
    have h3 : callsCorr (e :: es) k = callsCorr [e] k + callsCorr es k := by
      unfold callsCorr; rw [countP_cons', countP_one]; omega
    refine ⟨?_, h2.2⟩
    have h2 := h2.1
    show told (run (step st e) es) k + untold (run (step st e) es) k + waitingCorr (run (step st e) es) k = _
    omega

/-! ### The process stays up -/

/-- The http servers send user codes that are numbers. -/
def UserOk (line : Text) : Prop :=
  let f := field (line.takeWhile fun c => c != '\n' && c != '\r')
  fname f = userName → parseUser (fvalue f) ≠ none

/-- What is kept about the replies is fine. -/
def RepliesOk (st : State) : Prop :=
  st.down = false ∧ ∀ r ∈ st.pending, ∀ u, ffind r.reply userName = some u → parseUser (fvalue u) ≠ none

theorem codeOf_some {r : Req} (h : ∀ u, ffind r.reply userName = some u → parseUser (fvalue u) ≠ none) (b : Bool) (s : Nat) :
    codeOf r b s ≠ none := by
  unfold codeOf
  split
  · split
    · rename_i u hu
      have := h u hu
      cases hp : parseUser (fvalue u) with
      | none => exact absurd hp this
      | some n => simp
    · simp
  · split <;> simp

theorem repliesOk_metricMaybe {st : State} (h : RepliesOk st) : RepliesOk (metricMaybe st) := by
  refine ⟨by rw [metricMaybe_down]; exact h.1, ?_⟩
  rw [metricMaybe_pending]; exact h.2

theorem repliesOk_errorReply {st : State} (h : RepliesOk st) (c : Call) (code : Int) : RepliesOk (errorReply st c code) := by
  unfold errorReply
  apply repliesOk_metricMaybe
  cases c.noReply <;> exact h

theorem repliesOk_onReq {st : State} (h : RepliesOk st) (hh : Nat) (f : Req → Req)
    (hf : ∀ r ∈ st.pending, ∀ u, ffind (f r).reply userName = some u → parseUser (fvalue u) ≠ none) : RepliesOk (onReq st hh f) := by
  refine ⟨h.1, fun r hr => ?_⟩
  obtain ⟨x, hx, rfl⟩ := List.mem_map.1 hr
  split
  · exact hf x hx
  · exact h.2 x hx

theorem repliesOk_step {st : State} (h : RepliesOk st) (e : Ev) (he : ∀ hh l, e = .header hh l → UserOk l) : RepliesOk (step st e) := by
  unfold step
  rw [if_neg (by simp [h.1])]
  cases e with
  | call c =>
    simp only
    unfold onCall
    split
    · exact repliesOk_errorReply h _ _
    · split
      · exact repliesOk_errorReply h _ _
      · refine ⟨h.1, fun r hr => ?_⟩
        rcases List.mem_append.1 hr with hr | hr
        · exact h.2 r hr
        · rcases List.mem_singleton.1 hr with rfl
          intro u hu
          cases hu
  | discover d ns => exact h
  | read hh n =>
    simp only
    split
    · exact h
    · refine repliesOk_onReq h hh (readReq · n) fun r hr => ?_
      have : (readReq r n).reply = r.reply := by unfold readReq; split <;> rfl
      rw [this]
      exact h.2 r hr
  | header hh l =>
    refine repliesOk_onReq h hh (headerReq · l) fun r hr u hu => ?_
    have hl := he hh l rfl
    unfold headerReq at hu
    dsimp only at hu
    split at hu
    · exact h.2 r hr u hu
    · rw [ffind_add] at hu
      split at hu
      · rename_i hn
        cases hu
        exact hl hn
      · exact h.2 r hr u hu
  | body hh l => exact repliesOk_onReq h hh (bodyReq · l) fun r hr => h.2 r hr
  | done hh ok s =>
    simp only
    unfold onDone
    split
    · exact h
    · rename_i r hf
      dsimp only
      have hr := List.mem_of_find?_eq_some hf
      split
      · rename_i hc
        exact absurd hc (codeOf_some (h.2 r hr) ok s)
      · apply repliesOk_metricMaybe
        exact ⟨h.1, fun x hx => h.2 x (List.mem_of_mem_eraseP hx)⟩

/-- If the user codes that come are numbers, the process stays up. -/
theorem run_up (st : State) (es : List Ev) (h : RepliesOk st) (he : ∀ hh l, Ev.header hh l ∈ es → UserOk l) : RepliesOk (run st es) := by
  induction es generalizing st with
  | nil => exact h
  | cons e es ih =>
    exact ih (step st e) (repliesOk_step h e fun hh l hl => he hh l (hl ▸ List.mem_cons_self)) fun hh l hl => he hh l (List.mem_cons_of_mem _ hl)

end Casual.Http
