import Verif.Discovery.Waits

/-!
  C143 and C144: questions to discovery are answered once, and do not hang.
-/
namespace Casual.Discovery

/-- C143.  A discovery (of this domain or another) or rediscovery is answered at most as many times as it was asked. -/
theorem discovery_answered_at_most_once (domain : Domain) (services : List SvcCfg) (xs : List (Env × Input)) (a : Ask) :
    answered a (State.run domain services xs).log ≤ received a (State.run domain services xs).log := by
  have := run_bal a domain services xs
  unfold bal at this
  omega

theorem sumOf_pos {α : Type} {f : α → Nat} : ∀ {l : List α}, 0 < sumOf f l → ∃ x ∈ l, 0 < f x
  | [], h => by simp [sumOf] at h
  | x :: xs, h => by
    simp only [sumOf] at h
    by_cases hx : 0 < f x
    · exact ⟨x, List.mem_cons_self .., hx⟩
    · obtain ⟨y, hy, h⟩ := sumOf_pos (l := xs) (f := f) (by omega)
      exact ⟨y, List.mem_cons_of_mem _ hy, h⟩

theorem cnt_pos {a : Ask} {k : Kind} {rs : List Req} (h : 0 < cnt a k rs) : rs ≠ [] ∧ a.kind = k := by
  obtain ⟨r, hr, h⟩ := List.countP_pos_iff.mp h
  refine ⟨List.ne_nil_of_mem hr, ?_⟩
  have := of_decide_eq_true h
  rw [← this]
  rfl

/-- Which questions to providers a question waits for. -/
def Kind.waitsFor : Kind → Part → Prop
  | .api, p => p = .request
  | .request, p => p = .lookup ∨ p = .request
  | .rediscovery, p => p = .known ∨ p = .request

theorem waits_some {q : List Pend} (h : noneWaits q = false) : ∃ p ∈ q, p.state = .pending := by
  unfold noneWaits at h
  simp only [Bool.not_eq_false', List.any_eq_true] at h
  obtain ⟨p, hp, h⟩ := h
  exact ⟨p, hp, eq_of_beq h⟩

theorem failed_not_all {q : List Pend} (h : allFailed q = false) (hs : ∀ p ∈ q, p.state ≠ .received) : ∃ p ∈ q, p.state = .pending := by
  unfold allFailed at h
  obtain ⟨p, hp, h⟩ := List.all_eq_false.mp h
  refine ⟨p, hp, ?_⟩
  have := hs p hp
  cases hst : p.state with
  | pending => rfl
  | received => exact absurd hst this
  | failed => rw [hst] at h; exact absurd rfl h

/-- C144.  A question that is not answered waits: for the timer that is armed (if there is load; not a rediscovery), or for a
provider that is alive, was asked and has not answered. -/
theorem unanswered_waits (domain : Domain) (services : List SvcCfg) (xs : List (Env × Input)) (a : Ask)
    (h : answered a (State.run domain services xs).log < received a (State.run domain services xs).log) :
    (a.kind ≠ .rediscovery ∧ (State.run domain services xs).accumulate.deadline = true) ∨
    ∃ x ∈ owed (State.run domain services xs).log, a.kind.waitsFor x.part := by
  have hb := run_bal a domain services xs
  have ho := run_ok domain services xs
  generalize State.run domain services xs = s at *
  have hh : 0 < held a s := by unfold bal at hb; omega
  unfold held at hh
  by_cases h1 : 0 < sumOf (fun e : FanEntry Offer LookupCb => e.callback.keeps a) s.lookup
  · right
    obtain ⟨e, he, hk⟩ := sumOf_pos h1
    obtain ⟨p, hp, hw⟩ := waits_some (ho.lwait e he)
    have hx := ho.lookups.owed p (List.mem_flatMap.mpr ⟨e, he, hp⟩) hw
    refine ⟨_, hx.elim False.elim id, ?_⟩
    have : e.callback.ask = a := by
      unfold LookupCb.keeps at hk
      split at hk
      · assumption
      · omega
    have : a.kind = .request := by rw [← this]; cases e.callback <;> rfl
    rw [this]
    exact Or.inl rfl
  · by_cases h2 : 0 < sumOf (fun e : FanEntry Want KnownCb => e.callback.keeps a) s.known
    · right
      obtain ⟨e, he, hk⟩ := sumOf_pos h2
      obtain ⟨p, hp, hw⟩ := waits_some (ho.kwait e he)
      have hx := ho.knowns.owed p (List.mem_flatMap.mpr ⟨e, he, hp⟩) hw
      refine ⟨_, hx.elim False.elim id, ?_⟩
      have : e.callback.ask = some a := by
        unfold KnownCb.keeps at hk
        split at hk
        · assumption
        · omega
      have : a.kind = .rediscovery := by
        cases hc : e.callback with
        | rediscovery c q =>
          rw [hc] at this
          injection this with this
          rw [← this]
        | topology d i => rw [hc] at this; cases this
      rw [this]
      exact Or.inl rfl
    · by_cases h3 : 0 < sumOf (fun e : DiscEntry => e.callback.keeps a) s.discovery
      · right
        obtain ⟨e, he, hk⟩ := sumOf_pos h3
        obtain ⟨p, hp, hw⟩ := failed_not_all (ho.dwait e he) (ho.dstate e he)
        have hx := ho.requests.owed p (List.mem_flatMap.mpr ⟨e, he, hp⟩) hw
        refine ⟨_, hx.elim False.elim id, ?_⟩
        show a.kind.waitsFor .request
        cases a.kind
        · rfl
        · exact Or.inr rfl
        · exact Or.inr rfl
      · left
        have h4 : 0 < cnt a .request s.accumulate.discovery + cnt a .api s.accumulate.api := by omega
        by_cases h5 : 0 < cnt a .request s.accumulate.discovery
        · obtain ⟨hn, hk⟩ := cnt_pos h5
          refine ⟨(by rw [hk]; exact fun h => (by cases h)), ho.armed ?_⟩
          unfold Accumulate.some
          cases hd : s.accumulate.discovery with
          | nil => exact absurd hd hn
          | cons x xs => rfl
        · obtain ⟨hn, hk⟩ := cnt_pos (show 0 < cnt a .api s.accumulate.api by omega)
          refine ⟨(by rw [hk]; exact fun h => (by cases h)), ho.armed ?_⟩
          unfold Accumulate.some
          cases hd : s.accumulate.api with
          | nil => exact absurd hd hn
          | cons x xs => simp

/-- C144.  When no provider owes an answer and the timer is not armed every question is answered, as often as it was asked. -/
theorem all_answered_when_settled (domain : Domain) (services : List SvcCfg) (xs : List (Env × Input)) (a : Ask)
    (ho : owed (State.run domain services xs).log = []) (ht : (State.run domain services xs).accumulate.deadline = false) :
    answered a (State.run domain services xs).log = received a (State.run domain services xs).log := by
  refine Nat.le_antisymm (discovery_answered_at_most_once domain services xs a) (Nat.le_of_not_lt ?_)
  intro h
  rcases unanswered_waits domain services xs a h with ⟨_, h⟩ | ⟨x, hx, _⟩
  · rw [ht] at h; cases h
  · rw [ho] at hx; cases hx

/-! ### The timer -/

theorem foldl_accumulate {α : Type} (f : State → α → State) (hf : ∀ s r, (f s r).accumulate = s.accumulate) :
    ∀ (l : List α) (s : State), (l.foldl f s).accumulate = s.accumulate
  | [], _ => rfl
  | x :: xs, s => (foldl_accumulate f hf xs _).trans (hf s x)

theorem discDone_accumulate (s : State) (env : Env) (cb : DiscCb) : (s.discDone env cb).accumulate = s.accumulate := by
  cases cb with
  | aggregated content ds as key =>
    refine (foldl_accumulate _ ?_ ds _).trans (foldl_accumulate _ ?_ as s) <;> exact fun s r => rfl
  | rediscovery content corr process => rfl

theorem discAdd_accumulate (s : State) (env : Env) (e : DiscEntry) : (s.discAdd env e).accumulate = s.accumulate := by
  unfold State.discAdd
  split
  · rw [← discDone_accumulate s env e.callback]
    cases e.callback <;> rfl
  · rfl

theorem aggregated_accumulate (s : State) (env : Env) (ds as : List Req) (o : Offer) : (s.aggregated env ds as o).accumulate = s.accumulate := by
  unfold State.aggregated
  split
  · rfl
  · dsimp only
    rw [discAdd_accumulate]
    dsimp only
    split
    · obtain ⟨n, log, e⟩ := requests_fields env (fun h c => .request h c (s.normalize (((ds ++ as).foldl (fun w r => w.add r.content) ({} : Want)).diff o))) s (s.providers.filter (·.abilities.discover))
      rw [e]
    · rfl

theorem topology_accumulate (s : State) (env : Env) (q : List Pend) (direct : List Direct) (implicit : List Implicit) :
    (s.knownAdd env q (.topology direct implicit)).accumulate = s.accumulate := by
  unfold State.knownAdd
  split
  · unfold State.knownDone
    dsimp only
    refine (foldl_accumulate _ ?_ _ _).trans ?_
    · exact fun s r => rfl
    · split
      · refine foldl_accumulate _ ?_ _ _
        exact fun s r => rfl
      · rfl
  · rfl

/-- C144.  When the timer fires it is disarmed and nothing is accumulated any more: whatever was is answered, or waits for
providers only. -/
theorem timeout_disarms (s : State) (env : Env) (hd : s.done = false) : (s.step (env, .timeout)).accumulate = {} := by
  unfold State.step
  rw [hd]
  show (State.handle _ env .timeout).accumulate = _
  unfold State.handle
  dsimp only
  rw [aggregated_accumulate]
  unfold State.explore
  split
  · rfl
  · dsimp only
    rw [topology_accumulate]
    unfold State.collectKnown
    obtain ⟨n, log, e⟩ := requests_fields env (fun h c => .known h c) { s with log := s.log ++ [.inp .timeout], accumulate := {} }
      (({ s with log := s.log ++ [.inp .timeout], accumulate := {} } : State).providers.filter (·.abilities.fetchKnown))
    rw [e]

/-! ### A concrete case -/

def quiet : Env := ⟨fun _ => true, fun _ => false⟩
def loaded : Env := ⟨fun _ => true, fun _ => true⟩

/-- A question that waits for two providers; one answers, the other one dies. -/
example :
    let reg := [(quiet, Input.registration 1 ⟨1, 11⟩ { discover := true }), (quiet, .registration 2 ⟨2, 12⟩ { discover := true })]
    let xs := reg ++ [(quiet, .api ⟨7, ⟨9, 19⟩, { services := [5, 6] }⟩)]
    let a : Ask := ⟨.api, 19, 7⟩
    answered a (State.run 0 [] xs).log = 0 ∧ received a (State.run 0 [] xs).log = 1 ∧ (owed (State.run 0 [] xs).log).length = 2 ∧
    (let ys := xs ++ [(quiet, .reply 0 { services := [{ name := 5 }] }), (quiet, .exit 2)]
     answered a (State.run 0 [] ys).log = 1 ∧ owed (State.run 0 [] ys).log = [] ∧
       Item.out (.apiReply 19 7 { services := [{ name := 5 }] }) ∈ (State.run 0 [] ys).log) := by
  decide +kernel

/-- With load the question waits for the timer. -/
example :
    let xs := [(quiet, Input.registration 1 ⟨1, 11⟩ { discover := true }), (loaded, .api ⟨7, ⟨9, 19⟩, { services := [5, 6] }⟩)]
    let a : Ask := ⟨.api, 19, 7⟩
    answered a (State.run 0 [] xs).log = 0 ∧ owed (State.run 0 [] xs).log = [] ∧ (State.run 0 [] xs).accumulate.deadline = true ∧
    (State.run 0 [] xs).done = false ∧ (owed (State.run 0 [] (xs ++ [(quiet, .timeout)])).log).length = 1 := by
  decide +kernel

/-! ### Shutdown -/

/-- C145.  After the shutdown every discovery is answered at once, with nothing. -/
theorem answered_at_once_after_shutdown (s : State) (env : Env) (hs : s.shutdown = true) (hd : s.done = false) (r : Req) :
    (s.step (env, .api r)).log = s.log ++ [.inp (.api r),
      if env.reach r.process.ipc then .out (.apiReply r.process.ipc r.corr {}) else .lost (.apiReply r.process.ipc r.corr {})] ∧
    ∀ forward, (s.step (env, .request forward r)).log = s.log ++ [.inp (.request forward r),
      if env.reach r.process.ipc then .out (.reply r.process.ipc r.corr {}) else .lost (.reply r.process.ipc r.corr {})] := by
  refine ⟨?_, fun forward => ?_⟩
  · unfold State.step
    rw [hd]
    simp [State.handle, State.send, hs]
  · unfold State.step
    rw [hd]
    simp [State.handle, State.send, hs]

/-- When the process ends nothing is left unanswered but what is accumulated. -/
theorem done_only_accumulated_partial (domain : Domain) (services : List SvcCfg) (xs : List (Env × Input)) (a : Ask)
    (hd : (State.run domain services xs).done = true)
    (ht : (State.run domain services xs).accumulate.deadline = false) :
    answered a (State.run domain services xs).log = received a (State.run domain services xs).log := by
  have hb := run_bal a domain services xs
  have ho := run_ok domain services xs
  generalize State.run domain services xs = s at *
  unfold State.done at hd
  simp only [Bool.and_eq_true, List.isEmpty_iff] at hd
  obtain ⟨_, ⟨h1, h2⟩, h3⟩ := hd
  have hacc : s.accumulate.some = false := by
    cases h : s.accumulate.some
    · rfl
    · rw [ho.armed h] at ht; cases ht
  unfold Accumulate.some at hacc
  simp only [Bool.or_eq_false_iff, Bool.not_eq_false', List.isEmpty_iff] at hacc
  unfold bal held at hb
  rw [h1, h2, h3, hacc.1.1.1, hacc.1.1.2] at hb
  simp only [sumOf, cnt, List.countP_nil] at hb
  omega

/-- C145 does not hold: what is accumulated when the process is told to stop is never answered, whatever comes after. -/
theorem accumulated_lost_at_shutdown_refuted :
    ∃ (xs : List (Env × Input)) (a : Ask), ∀ ys : List (Env × Input),
      received a (State.run 0 [] (xs ++ ys)).log = 1 ∧ answered a (State.run 0 [] (xs ++ ys)).log = 0 := by
  refine ⟨[(loaded, .api ⟨7, ⟨9, 19⟩, { services := [5] }⟩), (quiet, .shutdown)], ⟨.api, 19, 7⟩, ?_⟩
  intro ys
  have stop : ∀ (ys : List (Env × Input)) (s : State), s.done = true → ys.foldl State.step s = s := by
    intro ys
    induction ys with
    | nil => exact fun s _ => rfl
    | cons y ys ih =>
      intro s hs
      have : s.step y = s := by unfold State.step; rw [hs]; rfl
      rw [List.foldl_cons, this]
      exact ih s hs
  unfold State.run
  rw [List.foldl_append, stop ys]
  · exact ⟨by decide +kernel, by decide +kernel⟩
  · decide +kernel

end Casual.Discovery
