import Verif.TConf.Base
/-
  Updates are answered once, and an instance that has been asked to stop is not used again, whatever happens.
-/
namespace Casual.TConf
open Casual.Task

/-! ### What handlers and actions send -/

theorem stop_sent (st : State) (id pid : Nat) : (stop st id pid).sent = st.sent ++ [.stop pid] := rfl

theorem stops_sent (id : Nat) : ∀ (pids : List Nat) (st : State), (pids.foldl (fun st pid => stop st id pid) st).sent = st.sent ++ pids.map .stop := by
  intro pids
  induction pids with
  | nil => intro st; simp
  | cons pid pids ih => intro st; rw [List.foldl_cons, ih, stop_sent]; simp

/-- How often an update has been answered. -/
def State.replies (st : State) (corr : Nat) : Nat := st.sent.count (.reply corr)

theorem stop_replies (st : State) (id pid corr : Nat) : (stop st id pid).replies corr = st.replies corr := by
  unfold State.replies
  rw [stop_sent, List.count_append, List.count_singleton]
  simp

/-- The answers that have been sent and those that wait. -/
def Answered (corr n : Nat) (st : State) (W : List Act) : Prop := st.replies corr + W.count (.reply corr) = n

theorem count_other {corr : Nat} {us : List Act} (h : ∀ a ∈ us, a.isReply = false) : us.count (.reply corr) = 0 := by
  rw [List.count_eq_zero]
  intro hm
  have := h _ hm
  cases this

theorem restartExit_sent (id : Nat) (rs ss : List Nat) (pid : Nat) (st : State) : (restartExit id rs ss pid st).1.sent = st.sent := by
  unfold restartExit ifDone
  split
  · rfl
  · dsimp only
    split
    · rfl
    · split
      · rfl
      · rename_i p _
        split
        · rfl
        · have := (spawn_spec st p).2.1
          split <;> rename_i h <;> rw [h] at this <;> exact this

theorem restartReady_replies (id : Nat) (rs ss : List Nat) (pid : Nat) (st : State) (corr : Nat) : (restartReady id rs ss pid st).1.replies corr = st.replies corr := by
  unfold restartReady ifDone
  split
  · rfl
  · dsimp only
    split
    · rfl
    · split
      · rfl
      · split
        · rfl
        · exact stop_replies _ _ _ _

theorem act_replies (a : Act) (b : Body) (st : State) (corr : Nat) (ha : a ≠ .reply corr) : (act a b st).1.replies corr = st.replies corr := by
  cases a with
  | scaleIn id =>
    show (scaleIn id b st).1.replies corr = _
    unfold scaleIn
    split
    · rfl
    · dsimp only
      split
      · rfl
      · dsimp only
        unfold State.replies
        rw [stops_sent, List.count_append]
        have : ∀ l : List Nat, (l.map Out.stop).count (.reply corr) = 0 := by
          intro l
          rw [List.count_eq_zero]
          simp
        rw [this]; rfl
  | scaleOut id =>
    show (scaleOut id b st).1.replies corr = _
    unfold scaleOut
    split
    · rfl
    · rename_i p _
      have := (spawns_spec p (p.conf.instances - p.running) st).2.1
      split
      · rename_i h; rw [h] at this; exact congrArg (List.count (.reply corr)) this
      · rename_i h; rw [h] at this; exact congrArg (List.count (.reply corr)) this
  | restart id =>
    show (restart id b st).1.replies corr = _
    unfold restart
    split
    · split
      · rfl
      · exact stop_replies _ _ _ _
    · rfl
  | remove ids => exact congrArg (List.count (.reply corr)) (removeAll_same ids st).sent
  | mappings w => rfl
  | reply c =>
    have : c ≠ corr := fun e => ha (e ▸ rfl)
    show (st.sent ++ [Out.reply c]).count (.reply corr) = _
    rw [List.count_append, List.count_singleton]
    simp [this, State.replies]

theorem handle_replies {b : Body} {m : Msg} {h : State → State × Body × Dispatch} (e : handle b m = some h) (st : State) (corr : Nat) : (h st).1.replies corr = st.replies corr := by
  unfold handle at e
  split at e <;> first | (cases e; done) | skip
  all_goals rw [← Option.some.inj e]
  · rfl
  · rfl
  · rfl
  · exact congrArg (List.count (.reply corr)) (restartExit_sent ..)
  · exact restartReady_replies ..

theorem answered_kept (corr n : Nat) : Kept (Answered corr n) (fun _ => True) (fun _ => True) := by
  refine ⟨fun a b st W _ _ h => ⟨?_, trivial⟩, fun b m h st W _ e hj => ⟨?_, trivial⟩⟩
  · unfold Answered at h ⊢
    by_cases ha : a = .reply corr
    · subst ha
      rw [List.count_cons_self] at h
      have : (act (.reply corr) b st).1.replies corr = st.replies corr + 1 := by
        show (st.sent ++ [Out.reply corr]).count (.reply corr) = _
        rw [List.count_append, List.count_singleton_self]; rfl
      omega
    · rw [act_replies a b st corr ha]
      rw [List.count_cons_of_ne (fun e => ha e)] at h
      exact h
  · unfold Answered at hj ⊢
    rw [handle_replies e]
    exact hj

theorem answered_indifferent (corr n : Nat) : Indifferent (Answered corr n) (fun _ => True) (fun _ => True) := by
  refine ⟨fun st st' W h hj => ?_, fun st W us hu hj => ?_, fun _ _ => trivial, fun _ => trivial⟩
  · unfold Answered State.replies at hj ⊢
    rw [h.sent]; exact hj
  · unfold Answered at hj ⊢
    rw [List.count_append, count_other hu]; omega

/-- How many updates with the correlation. -/
def asked (corr : Nat) (es : List Ev) : Nat := es.countP fun e => match e with | .update c _ => c == corr | _ => false

theorem onExit_good {J : State → List Act → Prop} {okA : Act → Prop} {okB : Body → Prop} (hk : Kept J okA okB) {c : Mgr} (pid : Nat) (h : GoodM J okA okB c)
    (hf : ∀ W, J c.st W → J { c.st with proxies := c.st.proxies.map fun p => { p with insts := p.insts.filter (·.pid ≠ pid) } } W) : GoodM J okA okB (onExit c pid) := by
  unfold onExit
  split
  · exact on_good h hf
  · exact msg_good hk _ h

theorem onUpdate_good (corr : Nat) {n : Nat} {c : Mgr} (k : Nat) (m : Model) (h : GoodM (Answered corr n) (fun _ => True) (fun _ => True) c) :
    GoodM (Answered corr (n + if k = corr then 1 else 0)) (fun _ => True) (fun _ => True) (onUpdate c k m) := by
  unfold onUpdate
  have h1 := conform_good (answered_kept corr n) (answered_indifferent corr n) m h
  refine push_good (answered_kept corr _) ?_ h1.units h1.front (fun _ _ => ⟨trivial, trivial⟩)
  have h2 := h1.holds
  unfold Answered at h2 ⊢
  rw [List.count_append]
  simp only [List.map_cons, List.map_nil]
  by_cases hc : k = corr
  · subst hc
    rw [List.count_singleton_self, if_pos rfl]; omega
  · rw [List.count_singleton, if_neg (by simp [hc]), if_neg hc]; omega

theorem step_answered (corr : Nat) {n : Nat} {c : Mgr} (e : Ev) (hd : c.st.dead = false) (h : GoodM (Answered corr n) (fun _ => True) (fun _ => True) c) :
    GoodM (Answered corr (n + asked corr [e])) (fun _ => True) (fun _ => True) (step c e) := by
  have hk := answered_kept corr n
  have hi := answered_indifferent corr n
  unfold step
  rw [if_neg (by rw [hd]; simp)]
  cases e with
  | exit pid => exact onExit_good hk pid h (fun _ hj => hj)
  | ask id pid =>
    show GoodM _ _ _ (onAsk c id pid)
    unfold onAsk
    split
    · exact on_good h (fun _ hj => hj)
    · exact on_good h (fun _ hj => hj)
  | ready id pid =>
    show GoodM _ _ _ (onReady c id pid)
    unfold onReady
    dsimp only
    split
    · exact on_good (msg_good hk _ h) (fun _ hj => hj)
    · exact on_good (msg_good hk _ h) (fun _ hj => hj)
  | update k m =>
    have := onUpdate_good corr k m h
    have e : asked corr [Ev.update k m] = if k = corr then 1 else 0 := by
      unfold asked
      rw [List.countP_singleton]
      by_cases hc : k = corr
      · simp [hc]
      · simp [hc]
    rw [e]
    exact this
  | alias a ns =>
    show GoodM _ _ _ (onAlias c a ns)
    unfold onAlias
    split
    · refine on_good h (fun W hj => ?_)
      unfold Answered State.replies at hj ⊢
      dsimp only
      rw [List.count_append, List.count_singleton]
      simpa using hj
    · exact on_good h (fun _ hj => hj)
  | shutdown => exact conform_good hk hi {} h

theorem run_dead (es : List Ev) : ∀ (c : Mgr), c.st.dead = true → run c es = c := by
  induction es with
  | nil => intro c _; rfl
  | cons e es ih =>
    intro c hd
    show run (step c e) es = c
    have : step c e = c := by unfold step; rw [if_pos hd]
    rw [this]
    exact ih c hd

theorem run_answered (corr : Nat) (es : List Ev) : ∀ (c : Mgr) (n : Nat), GoodM (Answered corr n) (fun _ => True) (fun _ => True) c →
    ∃ k, GoodM (Answered corr (n + k)) (fun _ => True) (fun _ => True) (run c es) ∧ k ≤ asked corr es ∧ ((run c es).st.dead = false → k = asked corr es) := by
  induction es with
  | nil => intro c n h; exact ⟨0, h, Nat.le_refl _, fun _ => rfl⟩
  | cons e es ih =>
    intro c n h
    by_cases hd : c.st.dead = true
    · rw [run_dead _ c hd]
      exact ⟨0, h, Nat.zero_le _, fun h2 => by rw [hd] at h2; cases h2⟩
    · have hd : c.st.dead = false := by simpa using hd
      obtain ⟨k, h1, h2, h3⟩ := ih _ _ (step_answered corr e hd h)
      have ha : asked corr (e :: es) = asked corr [e] + asked corr es := by
        unfold asked
        rw [show e :: es = [e] ++ es from rfl, List.countP_append]
      refine ⟨asked corr [e] + k, ?_, by omega, fun hd2 => ?_⟩
      · rw [← Nat.add_assoc]; exact h1
      · have := h3 hd2
        omega

theorem boot_answered (corr : Nat) (keys : List Nat) (fails : List Bool) (m : Model) : GoodM (Answered corr 0) (fun _ => True) (fun _ => True) (boot keys fails m) := by
  unfold boot
  refine conform_good (answered_kept corr 0) (answered_indifferent corr 0) m ⟨rfl, ?_, ?_⟩
  · intro g hg; cases hg
  · intro g hg; cases hg

/-- A configuration update is answered at most once, and when there is nothing left to do it has been answered. -/
theorem answered_once (keys : List Nat) (fails : List Bool) (m : Model) (es : List Ev) (corr : Nat) :
    (run (boot keys fails m) es).st.sent.count (.reply corr) ≤ asked corr es
    ∧ ((run (boot keys fails m) es).conts = [] → (run (boot keys fails m) es).st.dead = false → (run (boot keys fails m) es).st.sent.count (.reply corr) = asked corr es) := by
  obtain ⟨k, h1, h2, h3⟩ := run_answered corr es _ _ (boot_answered corr keys fails m)
  have h4 := h1.holds
  unfold Answered State.replies at h4
  refine ⟨by omega, fun hc hd => ?_⟩
  rw [hc] at h4
  have := h3 hd
  simp only [pend, List.flatMap_nil, List.count_nil] at h4
  omega

end Casual.TConf
