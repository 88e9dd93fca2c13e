import Verif.GConf.Coord
/-
  Updates are answered once; each process is one group, and is told what the manager has for it; a group that dies is started again.
-/
namespace Casual.GConf
open Casual.Task

/-! ### Specification -/

/-- How often the update has been posted. -/
def asked (corr : Nat) (es : List Ev) : Nat := es.countP fun e => match e with | .update c _ => c == corr | _ => false

/-! ### What actions and handlers keep -/

theorem handle_state {b : Body} {m : Msg} {h : State → State × Body × Dispatch} (e : handle b m = some h) (st : State) : (h st).1 = st := by
  unfold handle at e
  split at e
  · split at e
    · rw [← Option.some.inj e]; rfl
    · cases e
  · rw [← Option.some.inj e]; rfl
  · rw [← Option.some.inj e]; rfl
  · cases e

/-- A property that actions keep is kept by tasks. -/
theorem kept_of {J : State → List Act → Prop} (h : ∀ a b st W, J st (a :: W) → J (act a b st).1 W) : Kept J (fun _ => True) (fun _ => True) :=
  ⟨fun a b st W _ _ hj => ⟨h a b st W hj, trivial⟩, fun b m f st W _ e hj => ⟨by rw [handle_state e]; exact hj, trivial⟩⟩

theorem spawn_spec (st : State) : (spawn st).1.groups = st.groups ∧ (spawn st).1.sent = st.sent ∧ (spawn st).1.level = st.level
    ∧ (((spawn st).2 = none ∧ (spawn st).1.nextPid = st.nextPid) ∨ ((spawn st).2 = some st.nextPid ∧ (spawn st).1.nextPid = st.nextPid + 1)) := by
  unfold spawn
  split
  · exact ⟨rfl, rfl, rfl, .inl ⟨rfl, rfl⟩⟩
  · exact ⟨rfl, rfl, rfl, .inr ⟨rfl, rfl⟩⟩

theorem spawns_spec : ∀ (cs : List Conf) (st : State), (spawns cs st).1.groups = st.groups ∧ (spawns cs st).1.sent = st.sent ∧ (spawns cs st).1.level = st.level
    ∧ st.nextPid ≤ (spawns cs st).1.nextPid ∧ ((spawns cs st).2.map (·.pid)).Nodup
    ∧ ∀ g ∈ (spawns cs st).2, st.nextPid ≤ g.pid ∧ g.pid < (spawns cs st).1.nextPid ∧ g.ipc = false ∧ g.conf ∈ cs := by
  intro cs
  induction cs with
  | nil => intro st; exact ⟨rfl, rfl, rfl, Nat.le_refl _, List.nodup_nil, by intro g h; cases h⟩
  | cons c cs ih =>
    intro st
    unfold spawns
    dsimp only
    obtain ⟨a1, a2, a3, a4⟩ := spawn_spec st
    obtain ⟨b1, b2, b3, b4, b5, b6⟩ := ih (spawn st).1
    refine ⟨b1.trans a1, b2.trans a2, b3.trans a3, ?_, ?_, ?_⟩
    · rcases a4 with ⟨_, e⟩ | ⟨_, e⟩ <;> omega
    · rcases a4 with ⟨e1, _⟩ | ⟨e1, e2⟩
      · rw [e1]; exact b5
      · rw [e1]
        refine List.nodup_cons.2 ⟨fun hm => ?_, b5⟩
        obtain ⟨g, hg, e⟩ := List.mem_map.1 hm
        have := (b6 g hg).1
        dsimp only at e
        omega
    · intro g hg
      rcases List.mem_append.1 hg with hg | hg
      · rcases a4 with ⟨e1, _⟩ | ⟨e1, e2⟩
        · rw [e1] at hg; cases hg
        · rw [e1] at hg
          rw [List.mem_singleton.1 hg]
          exact ⟨Nat.le_refl _, by dsimp only; omega, rfl, List.mem_cons_self ..⟩
      · have := b6 g hg
        refine ⟨?_, this.2.1, this.2.2.1, List.mem_cons_of_mem _ this.2.2.2⟩
        rcases a4 with ⟨_, e⟩ | ⟨_, e⟩ <;> omega

theorem changeFirst_map {α} {q : Group → Bool} {f : Group → Group} (k : Group → α) (hf : ∀ g, k (f g) = k g) : ∀ gs : List Group, (changeFirst q f gs).map k = gs.map k := by
  intro gs
  induction gs with
  | nil => rfl
  | cons g gs ih =>
    unfold changeFirst
    split
    · rw [List.map_cons, hf]; rfl
    · rw [List.map_cons, ih]; rfl

theorem changeFirst_mem {q : Group → Bool} {f : Group → Group} {x : Group} : ∀ {gs : List Group}, x ∈ changeFirst q f gs → x ∈ gs ∨ ∃ g ∈ gs, q g = true ∧ x = f g := by
  intro gs
  induction gs with
  | nil => intro h; cases h
  | cons g gs ih =>
    intro h
    unfold changeFirst at h
    split at h
    · rcases List.mem_cons.1 h with rfl | h
      · exact .inr ⟨g, List.mem_cons_self .., ‹_›, rfl⟩
      · exact .inl (List.mem_cons_of_mem _ h)
    · rcases List.mem_cons.1 h with rfl | h
      · exact .inl (List.mem_cons_self ..)
      · rcases ih h with h | ⟨y, hy, e⟩
        · exact .inl (List.mem_cons_of_mem _ h)
        · exact .inr ⟨y, List.mem_cons_of_mem _ hy, e⟩

theorem modifyAll_spec (s : Side) : ∀ (cs : List Conf) (st : State), (modifyAll s cs st).1.sent = st.sent ∧ (modifyAll s cs st).1.nextPid = st.nextPid ∧ (modifyAll s cs st).1.level = st.level
    ∧ (modifyAll s cs st).1.groups.map (·.pid) = st.groups.map (·.pid)
    ∧ ((∀ g ∈ st.groups, g.ipc = true → g.told = some g.conf) → ∀ g ∈ (modifyAll s cs st).1.groups, g.ipc = true → g.told = some g.conf) := by
  intro cs
  induction cs with
  | nil => intro st; exact ⟨rfl, rfl, rfl, rfl, id⟩
  | cons c cs ih =>
    intro st
    unfold modifyAll
    split
    · exact ih st
    · dsimp only
      obtain ⟨h1, h2, h3, h4, h5⟩ := ih { st with groups := changeFirst (Group.named s c.alias) (Group.update c) st.groups }
      refine ⟨h1, h2, h3, h4.trans (changeFirst_map (f := Group.update c) (·.pid) (fun _ => rfl) _), fun h => h5 fun g hg hi => ?_⟩
      rcases changeFirst_mem hg with hg | ⟨x, hx, _, rfl⟩
      · exact h g hg hi
      · unfold Group.update at hi ⊢
        dsimp only at hi ⊢
        rw [hi]; rfl

/-! ### Updates are answered once -/

/-- The answers that have been sent and those that wait. -/
def Answered (corr n : Nat) (st : State) (W : List Act) : Prop := st.sent.count (.reply corr) + W.count (.reply corr) = n

theorem act_replies (a : Act) (b : Body) (st : State) (corr : Nat) (ha : a ≠ .reply corr) : (act a b st).1.sent.count (.reply corr) = st.sent.count (.reply corr) := by
  cases a with
  | added s cs =>
    show (added s cs b st).1.sent.count _ = _
    have := (spawns_spec cs st).2.1
    unfold added
    split <;> rename_i e <;> rw [e] at this <;> exact congrArg (List.count _) this
  | modified s cs =>
    show (modified s cs b st).1.sent.count _ = _
    have := (modifyAll_spec s cs st).1
    unfold modified
    split <;> rename_i e <;> rw [e] at this <;> exact congrArg (List.count _) this
  | removed s cs =>
    show (removed s cs b st).1.sent.count _ = _
    unfold removed
    split
    · rfl
    · dsimp only
      rw [List.count_append]
      have : ∀ l : List Nat, (l.map Out.stop).count (.reply corr) = 0 := by
        intro l
        rw [List.count_eq_zero]
        simp
      rw [this]; rfl
  | reply c =>
    have : c ≠ corr := fun e => ha (e ▸ rfl)
    show (st.sent ++ [Out.reply c]).count (.reply corr) = _
    rw [List.count_append, List.count_singleton]
    simp [this]
  | booted => rfl

theorem answered_kept (corr n : Nat) : Kept (Answered corr n) (fun _ => True) (fun _ => True) := by
  refine kept_of fun a b st W h => ?_
  unfold Answered at h ⊢
  by_cases ha : a = .reply corr
  · subst ha
    rw [List.count_cons_self] at h
    have : (act (.reply corr) b st).1.sent.count (.reply corr) = st.sent.count (.reply corr) + 1 := by
      show (st.sent ++ [Out.reply corr]).count (.reply corr) = _
      rw [List.count_append, List.count_singleton_self]
    omega
  · rw [act_replies a b st corr ha]
    rw [List.count_cons_of_ne (fun e => ha e)] at h
    exact h

/-- What updates do is of no importance to `J`. -/
def Free (J : State → List Act → Prop) : Prop := ∀ st W us, (∀ a ∈ us, ∀ corr, a ≠ .reply corr) → J st W → J st (W ++ us)

theorem answered_free (corr n : Nat) : Free (Answered corr n) := by
  intro st W us hu h
  unfold Answered at h ⊢
  have : us.count (.reply corr) = 0 := List.count_eq_zero.2 fun hm => hu _ hm corr rfl
  rw [List.count_append]
  omega

variable {J : State → List Act → Prop}

theorem free_push (hk : Kept J (fun _ => True) (fun _ => True)) (hi : Free J) {c : Mgr} (a : Act) (ha : ∀ corr, a ≠ .reply corr) (h : GoodM J (fun _ => True) (fun _ => True) c) :
    GoodM J (fun _ => True) (fun _ => True) (c.push [(a, .none)]) := by
  refine push_good hk (hi _ _ _ ?_ h.holds) h.units h.front (fun _ _ => ⟨trivial, trivial⟩)
  intro x hx
  rw [List.mem_singleton.1 hx]
  exact ha

theorem task_good (hk : Kept J (fun _ => True) (fun _ => True)) (hi : Free J) {c : Mgr} (mk : List Conf → Act) (cs : List Conf) (ha : ∀ corr, mk cs ≠ .reply corr)
    (h : GoodM J (fun _ => True) (fun _ => True) c) : GoodM J (fun _ => True) (fun _ => True) (c.task mk cs) := by
  unfold Mgr.task
  split
  · exact h
  · exact free_push hk hi _ ha h

theorem conform_good (hk : Kept J (fun _ => True) (fun _ => True)) (hi : Free J) {c : Mgr} (wanted : List Conf) (h : GoodM J (fun _ => True) (fun _ => True) c) :
    GoodM J (fun _ => True) (fun _ => True) (conform c wanted) := by
  unfold conform
  dsimp only
  split
  · exact h
  · refine task_good hk hi _ _ (fun _ e => by cases e) ?_
    refine task_good hk hi _ _ (fun _ e => by cases e) ?_
    refine task_good hk hi _ _ (fun _ e => by cases e) ?_
    refine task_good hk hi _ _ (fun _ e => by cases e) ?_
    refine task_good hk hi _ _ (fun _ e => by cases e) ?_
    exact task_good hk hi _ _ (fun _ e => by cases e) h

theorem onExit_good (hk : Kept J (fun _ => True) (fun _ => True)) (hi : Free J) {c : Mgr} (pid : Nat)
    (hf : ∀ W, J c.st W → J { c.st with groups := c.st.groups.eraseP (Group.isProc pid) } W) (h : GoodM J (fun _ => True) (fun _ => True) c) :
    GoodM J (fun _ => True) (fun _ => True) (onExit c pid) := by
  unfold onExit
  dsimp only
  refine msg_good hk _ ?_
  split
  · exact h
  · have h1 : GoodM J (fun _ => True) (fun _ => True) (c.on fun st => { st with groups := st.groups.eraseP (Group.isProc pid) }) := on_good h hf
    split
    · exact free_push hk hi _ (fun _ e => by cases e) h1
    · exact h1

/-- What events do that has nothing to do with updates. -/
structure Steady (J : State → List Act → Prop) : Prop where
  exit : ∀ st W pid, J st W → J { st with groups := st.groups.eraseP (Group.isProc pid) } W
  connect : ∀ st W s pid, J st W → J { st with groups := changeFirst (fun g => g.conf.side == s && g.pid == pid) (fun g => { g with ipc := true, told := some g.conf }) st.groups } W
  level : ∀ st W l, J st W → J { st with level := l } W

theorem answered_steady (corr n : Nat) : Steady (Answered corr n) := ⟨fun _ _ _ h => h, fun _ _ _ _ h => h, fun _ _ _ h => h⟩

theorem step_good (hk : Kept J (fun _ => True) (fun _ => True)) (hi : Free J) (hs : Steady J) {c : Mgr} (e : Ev) (hu : ∀ k w, e ≠ .update k w) (h : GoodM J (fun _ => True) (fun _ => True) c) :
    GoodM J (fun _ => True) (fun _ => True) (step c e) := by
  unfold step
  split
  · exact h
  · cases e with
    | exit pid => exact onExit_good hk hi pid (fun W hj => hs.exit _ W pid hj) h
    | connect s pid => exact on_good h fun W hj => hs.connect _ W s pid hj
    | reply s pid => exact msg_good hk _ h
    | update k w => exact absurd rfl (hu k w)
    | shutdown => exact conform_good hk hi _ (on_good h fun W hj => hs.level _ W _ hj)

theorem update_good (hk : Kept J (fun _ => True) (fun _ => True)) (hi : Free J) (hs : Steady J) {c : Mgr} (w : List Conf) (h : GoodM J (fun _ => True) (fun _ => True) c) :
    GoodM J (fun _ => True) (fun _ => True) (conform (c.on fun st => { st with level := if st.level = .running then .configuring else st.level }) w) :=
  conform_good hk hi _ (on_good h fun W hj => hs.level _ W _ hj)

theorem step_answered (corr : Nat) {n : Nat} {c : Mgr} (e : Ev) (hd : c.st.done = false) (h : GoodM (Answered corr n) (fun _ => True) (fun _ => True) c) :
    GoodM (Answered corr (n + asked corr [e])) (fun _ => True) (fun _ => True) (step c e) := by
  by_cases hu : ∃ k w, e = .update k w
  · obtain ⟨k, w, rfl⟩ := hu
    unfold step
    rw [hd]
    show GoodM _ _ _ (onUpdate c k w)
    unfold onUpdate
    have h1 := update_good (answered_kept corr n) (answered_free corr n) (answered_steady corr n) w h
    refine push_good (answered_kept corr _) ?_ h1.units h1.front (fun _ _ => ⟨trivial, trivial⟩)
    have h2 := h1.holds
    unfold Answered at h2 ⊢
    rw [List.count_append, List.map_cons, List.map_nil, List.count_singleton]
    unfold asked
    rw [List.countP_singleton]
    by_cases hc : k = corr
    · subst hc; simp; omega
    · simp [hc]; omega
  · have hu : ∀ k w, e ≠ .update k w := fun k w he => hu ⟨k, w, he⟩
    have : asked corr [e] = 0 := by
      cases e with
      | update k w => exact absurd rfl (hu k w)
      | _ => rfl
    rw [this]
    exact step_good (answered_kept corr n) (answered_free corr n) (answered_steady corr n) e hu h

theorem run_done (es : List Ev) : ∀ c : Mgr, c.st.done = true → run c es = c := by
  induction es with
  | nil => intro c _; rfl
  | cons e es ih =>
    intro c hd
    have : step c e = c := by unfold step; rw [hd]; rfl
    show run (step c e) es = c
    rw [this]
    exact ih c hd

theorem run_answered (corr : Nat) (es : List Ev) : ∀ (c : Mgr) (n : Nat), GoodM (Answered corr n) (fun _ => True) (fun _ => True) c →
    ∃ k, GoodM (Answered corr (n + k)) (fun _ => True) (fun _ => True) (run c es) ∧ k ≤ asked corr es ∧ ((run c es).st.done = false → k = asked corr es) := by
  induction es with
  | nil => intro c n h; exact ⟨0, h, Nat.le_refl _, fun _ => rfl⟩
  | cons e es ih =>
    intro c n h
    by_cases hd : c.st.done = true
    · rw [run_done _ c hd]
      exact ⟨0, h, Nat.zero_le _, fun h2 => by rw [hd] at h2; cases h2⟩
    · have hd : c.st.done = false := by simpa using hd
      obtain ⟨k, h1, h2, h3⟩ := ih _ _ (step_answered corr e hd h)
      have ha : asked corr (e :: es) = asked corr [e] + asked corr es := by
        unfold asked
        rw [show e :: es = [e] ++ es from rfl, List.countP_append]
      refine ⟨asked corr [e] + k, ?_, by omega, fun hd2 => ?_⟩
      · rw [← Nat.add_assoc]; exact h1
      · have := h3 hd2
        omega

theorem boot_good (hk : Kept J (fun _ => True) (fun _ => True)) (hi : Free J) (fails : List Bool) (wanted : List Conf) (h0 : J { fails := fails } []) :
    GoodM J (fun _ => True) (fun _ => True) (boot fails wanted) := by
  unfold boot
  refine free_push hk hi _ (fun _ e => by cases e) (conform_good hk hi wanted ⟨h0, ?_, ?_⟩)
  · intro g hg; cases hg
  · intro g hg; cases hg

/-- A configuration update is answered at most once, and when there is nothing left to do, and the manager has not ended, it has been answered. -/
theorem answered_once (fails : List Bool) (wanted : List Conf) (es : List Ev) (corr : Nat) :
    (run (boot fails wanted) es).st.sent.count (.reply corr) ≤ asked corr es
    ∧ ((run (boot fails wanted) es).conts = [] → (run (boot fails wanted) es).st.done = false → (run (boot fails wanted) es).st.sent.count (.reply corr) = asked corr es) := by
  obtain ⟨k, h1, h2, h3⟩ := run_answered corr es _ _ (boot_good (answered_kept corr 0) (answered_free corr 0) fails wanted rfl)
  have h4 := h1.holds
  unfold Answered at h4
  refine ⟨by omega, fun hc hd => ?_⟩
  rw [hc] at h4
  have := h3 hd
  simp only [pend, List.flatMap_nil, List.count_nil] at h4
  omega

/-! ### What is so at all times -/

theorem run_good (hk : Kept J (fun _ => True) (fun _ => True)) (hi : ∀ st W us, J st W → J st (W ++ us)) (hs : Steady J) (fails : List Bool) (wanted : List Conf) (h0 : J { fails := fails } [])
    (es : List Ev) : GoodM J (fun _ => True) (fun _ => True) (run (boot fails wanted) es) := by
  have hf : Free J := fun st W us _ h => hi st W us h
  have : ∀ (es : List Ev) (c : Mgr), GoodM J (fun _ => True) (fun _ => True) c → GoodM J (fun _ => True) (fun _ => True) (run c es) := by
    intro es
    induction es with
    | nil => intro c h; exact h
    | cons e es ih =>
      intro c h
      refine ih _ ?_
      by_cases hu : ∃ k w, e = .update k w
      · obtain ⟨k, w, rfl⟩ := hu
        unfold step
        split
        · exact h
        · have h1 := update_good hk hf hs w h
          exact push_good hk (hi _ _ _ h1.holds) h1.units h1.front (fun _ _ => ⟨trivial, trivial⟩)
      · exact step_good hk hf hs e (fun k w he => hu ⟨k, w, he⟩) h
  exact this es _ (boot_good hk hf fails wanted h0)

/-- Each process is one group, and has been told what it should. -/
def Sound (st : State) (_ : List Act) : Prop := (st.groups.map (·.pid)).Nodup ∧ (∀ g ∈ st.groups, g.pid < st.nextPid) ∧ ∀ g ∈ st.groups, g.ipc = true → g.told = some g.conf

theorem below_of {gs gs' : List Group} {n n' : Nat} (e : gs'.map (·.pid) = gs.map (·.pid)) (hn : n ≤ n') (h : ∀ g ∈ gs, g.pid < n) : ∀ g ∈ gs', g.pid < n' := by
  intro g hg
  have : g.pid ∈ gs.map (·.pid) := e ▸ List.mem_map_of_mem hg
  obtain ⟨x, hx, e2⟩ := List.mem_map.1 this
  have := h x hx
  omega

theorem sound_kept : Kept Sound (fun _ => True) (fun _ => True) := by
  refine kept_of fun a b st W h => ?_
  cases a with
  | added s cs =>
    show Sound (added s cs b st).1 W
    obtain ⟨h1, h2, h3, h4, h5, h6⟩ := spawns_spec cs st
    unfold added
    split
    · rename_i e
      rw [e] at h1 h4
      dsimp only at h1 h4 ⊢
      refine ⟨?_, fun g hg => ?_, fun g hg => ?_⟩
      · rw [h1]; exact h.1
      · rw [h1] at hg
        have := h.2.1 g hg
        omega
      · rw [h1] at hg
        exact h.2.2 g hg
    · rename_i st' gs _ e
      rw [e] at h1 h4 h5 h6
      dsimp only at h1 h4 h5 h6 ⊢
      refine ⟨?_, fun g hg => ?_, fun g hg hi => ?_⟩
      · dsimp only
        rw [List.map_append, h1]
        refine List.nodup_append.2 ⟨h.1, h5, ?_⟩
        intro x hx y hy e2
        obtain ⟨g, hg, rfl⟩ := List.mem_map.1 hx
        obtain ⟨g', hg', rfl⟩ := List.mem_map.1 hy
        have := h.2.1 g hg
        have := (h6 g' hg').1
        omega
      · rcases List.mem_append.1 hg with hg | hg
        · rw [h1] at hg
          have := h.2.1 g hg
          dsimp only
          omega
        · exact (h6 g hg).2.1
      · rcases List.mem_append.1 hg with hg | hg
        · rw [h1] at hg
          exact h.2.2 g hg hi
        · rw [(h6 g hg).2.2.1] at hi; cases hi
  | modified s cs =>
    show Sound (modified s cs b st).1 W
    obtain ⟨_, h2, _, h4, h5⟩ := modifyAll_spec s cs st
    have : Sound (modifyAll s cs st).1 W := ⟨h4 ▸ h.1, below_of h4 (Nat.le_of_eq h2.symm) h.2.1, h5 h.2.2⟩
    unfold modified
    split <;> rename_i e <;> rw [e] at this <;> exact this
  | removed s cs =>
    show Sound (removed s cs b st).1 W
    unfold removed
    split
    · exact h
    · exact h
  | reply c => exact h
  | booted => exact h

theorem sound_steady : Steady Sound := by
  refine ⟨fun st W pid h => ?_, fun st W s pid h => ?_, fun _ _ _ h => h⟩
  · exact ⟨(List.Sublist.map _ List.eraseP_sublist).nodup h.1, fun g hg => h.2.1 g (List.eraseP_sublist.subset hg), fun g hg => h.2.2 g (List.eraseP_sublist.subset hg)⟩
  · have e := changeFirst_map (q := fun g => g.conf.side == s && g.pid == pid) (f := fun g => { g with ipc := true, told := some g.conf }) (·.pid) (fun _ => rfl) st.groups
    refine ⟨?_, below_of e (Nat.le_refl _) h.2.1, fun g hg hi => ?_⟩
    · dsimp only
      rw [e]; exact h.1
    · rcases changeFirst_mem hg with hg | ⟨x, _, _, rfl⟩
      · exact h.2.2 g hg hi
      · rfl

theorem run_sound (fails : List Bool) (wanted : List Conf) (es : List Ev) : Sound (run (boot fails wanted) es).st [] :=
  (run_good sound_kept (fun _ _ _ h => h) sound_steady fails wanted ⟨List.nodup_nil, (by intro g hg; cases hg), (by intro g hg; cases hg)⟩ es).holds

/-- At all times: each process is one group, and each group that has connected has been told, last, the configuration that the manager has for it. -/
theorem told_current (fails : List Bool) (wanted : List Conf) (es : List Ev) :
    ((run (boot fails wanted) es).st.groups.map (·.pid)).Nodup ∧ ∀ g ∈ (run (boot fails wanted) es).st.groups, g.ipc = true → g.told = some g.conf :=
  ⟨(run_sound fails wanted es).1, (run_sound fails wanted es).2.2⟩

theorem find_proc {gs : List Group} (hn : (gs.map (·.pid)).Nodup) {g : Group} (hg : g ∈ gs) : gs.find? (Group.isProc g.pid) = some g := by
  induction gs with
  | nil => cases hg
  | cons x xs ih =>
    rw [List.find?_cons]
    rw [List.map_cons, List.nodup_cons] at hn
    rcases List.mem_cons.1 hg with rfl | hg
    · have : Group.isProc g.pid g = true := by unfold Group.isProc; simp
      rw [this]
    · have : Group.isProc g.pid x = false := by
        unfold Group.isProc
        simp only [beq_eq_false_iff_ne]
        intro e
        exact hn.1 (e ▸ List.mem_map_of_mem hg)
      rw [this]
      exact ih hn.2 hg

theorem erase_proc {gs : List Group} (hn : (gs.map (·.pid)).Nodup) (pid : Nat) : gs.eraseP (Group.isProc pid) = gs.filter fun x => x.pid ≠ pid := by
  induction gs with
  | nil => rfl
  | cons x xs ih =>
    rw [List.map_cons, List.nodup_cons] at hn
    rw [List.eraseP_cons]
    by_cases e : x.pid = pid
    · have : Group.isProc pid x = true := by unfold Group.isProc; simp [e]
      rw [this, List.filter_cons_of_neg (by simp [e])]
      symm
      show _ = xs
      rw [List.filter_eq_self]
      intro y hy
      simp only [decide_eq_true_eq]
      intro e2
      exact hn.1 (by rw [e, ← e2]; exact List.mem_map_of_mem hy)
    · have : Group.isProc pid x = false := by unfold Group.isProc; simp [e]
      rw [this, List.filter_cons_of_pos (by simp [e]), ih hn.2]
      rfl

/-- If the manager is running, with nothing to do, and a group dies: it is started again, with the same configuration, unless the process can not be started. All other groups are as they were. -/
theorem restarted (fails : List Bool) (wanted : List Conf) (es : List Ev) (hl : (run (boot fails wanted) es).st.level = .running) (hc : (run (boot fails wanted) es).conts = [])
    (hf : (run (boot fails wanted) es).st.fails.head? ≠ some true) (g : Group) (hg : g ∈ (run (boot fails wanted) es).st.groups) :
    ∃ new, (∀ x ∈ (run (boot fails wanted) es).st.groups, x.pid ≠ new)
      ∧ (step (run (boot fails wanted) es) (.exit g.pid)).st.groups = (run (boot fails wanted) es).st.groups.filter (fun x => x.pid ≠ g.pid) ++ [{ pid := new, conf := g.conf, exe := g.conf.reversed }] := by
  have hs := run_sound fails wanted es
  generalize run (boot fails wanted) es = c at *
  refine ⟨c.st.nextPid, fun x hx e => by have := hs.2.1 x hx; omega, ?_⟩
  have hd : c.st.done = false := by unfold State.done; rw [hl]; rfl
  have hfind := find_proc hs.1 hg
  have herase := erase_proc hs.1 g.pid
  have hne : g.pid ≠ c.st.nextPid := fun e => by have := hs.2.1 g hg; omega
  have hsp : spawn { c.st with groups := c.st.groups.eraseP (Group.isProc g.pid) }
      = ({ c.st with groups := c.st.groups.eraseP (Group.isProc g.pid), fails := c.st.fails.tail, nextPid := c.st.nextPid + 1 }, some c.st.nextPid) := by
    unfold spawn
    dsimp only
    split
    · rename_i e; rw [e] at hf; exact absurd rfl hf
    · rfl
  unfold step
  rw [hd]
  show (onExit c g.pid).st.groups = _
  unfold onExit
  rw [hfind]
  dsimp only
  rw [if_pos hl]
  unfold Mgr.push Mgr.on Mgr.msg Coord.step coordThen
  dsimp only
  rw [hc]
  simp only [List.nil_append, List.length_singleton, if_true, coordStart, mkGroup, List.zipIdx_singleton, List.map_cons, List.map_nil, groupStart, unitStart, ops, act, added, spawns, hsp,
    Option.toList_some, List.append_nil, List.isEmpty_cons, Bool.false_eq_true, if_false, coordMsg, groupMsg, unitMsg, handle, less]
  have : [c.st.nextPid].filter (· ≠ g.pid) = [c.st.nextPid] := List.filter_cons_of_pos (by simpa using fun e => hne e.symm)
  have hne2 : c.st.nextPid ≠ g.pid := fun e => hne e.symm
  simp [this, herase, hne2]

end Casual.GConf
