import Verif.DManager.Connect
import Verif.DManager.Demo

/-! Connects, singletons, lookups and assassinations. -/
namespace Casual.DManager

open Casual.Task

/-! ### What one input brings to the log -/

/-- The items that are about connects. -/
def Item.ofConnect : Item → Bool
  | .admitted .. | .approved .. | .denied .. => true
  | _ => false

/-- The log is longer, and what is new is not about connects. -/
def Hush (c c' : Core) : Prop := ∃ ext, c'.log = c.log ++ ext ∧ ∀ i ∈ ext, i.ofConnect = false

theorem Hush.refl (c : Core) : Hush c c := ⟨[], by simp, by simp⟩

theorem Hush.trans {a b c : Core} (h1 : Hush a b) (h2 : Hush b c) : Hush a c := by
  obtain ⟨e1, h3, h4⟩ := h1
  obtain ⟨e2, h5, h6⟩ := h2
  refine ⟨e1 ++ e2, by rw [h5, h3, List.append_assoc], ?_⟩
  intro i hi
  rcases List.mem_append.1 hi with hi | hi
  · exact h4 i hi
  · exact h6 i hi

theorem Hush.say (c : Core) {items : List Item} (h : ∀ i ∈ items, i.ofConnect = false) : Hush c (c.say items) :=
  ⟨items, rfl, h⟩

theorem Frame.hush {c c' : Core} (f : Frame c c') : Hush c c' := by
  obtain ⟨ext, h1, h2⟩ := f.log
  refine ⟨ext, h1, fun i hi => ?_⟩
  have := h2 i hi
  cases i <;> simp_all [Item.ofTask, Item.ofConnect]

theorem Hush.of_log {c c' : Core} (h : c'.log = c.log) : Hush c c' := ⟨[], by simp [h], by simp⟩

theorem remove_log (c : Core) (pid : Pid) : (c.remove pid).1.log = c.log := by
  unfold Core.remove
  dsimp only
  repeat' split
  all_goals rfl

theorem Hush.exit (lib : Lib) (s : State) (pid : Pid) : Hush s.st (s.exit lib pid).st := by
  unfold State.exit
  dsimp only
  refine Hush.trans ?_ (Frame.tasks lib _ _).hush
  dsimp only
  split
  · exact (Hush.of_log (remove_log _ _)).trans (Frame.scaleInstances lib _ _).hush
  · exact .of_log (remove_log _ _)

theorem Hush.prepared (c : Core) (hs : List Handle) : Hush c (c.prepared hs) := by
  refine .say c ?_
  intro i hi
  obtain ⟨h, _, rfl⟩ := List.mem_map.1 hi
  split <;> rfl

theorem Hush.own (lib : Lib) (s : State) : Hush s.st (s.own lib).st := by
  unfold State.own
  split
  · exact .refl _
  · dsimp only
    split
    · exact (Hush.of_log rfl).trans (Frame.tasks lib _ _).hush
    · exact (Hush.of_log rfl).trans (Hush.prepared _ _)

theorem answer_hush {c : Core} {l : Lookup} {items : List Item} (ha : c.answer l = some items) :
    ∀ i ∈ items, i.ofConnect = false := by
  unfold Core.answer at ha
  intro i hi
  split at ha
  · split at ha
    · cases ha; simp at hi; subst hi; rfl
    · split at ha
      · cases ha; simp at hi; subst hi; rfl
      · cases ha
  · split at ha
    · dsimp only at ha
      split at ha
      · cases ha; simp at hi; subst hi; rfl
      · cases ha
    · cases ha; simp at hi

theorem Hush.lookup (c : Core) (l : Lookup) : Hush c (c.lookup l) := by
  unfold Core.lookup
  split
  · exact .say c (answer_hush ‹_›)
  · exact .of_log rfl

theorem Hush.retry (c : Core) : Hush c c.retry := by
  refine ⟨_, rfl, ?_⟩
  intro i hi
  obtain ⟨l, _, hi⟩ := List.mem_flatMap.1 hi
  cases ha : c.answer l with
  | none => simp [ha] at hi
  | some items => rw [ha] at hi; exact answer_hush ha i hi

theorem Hush.connected (lib : Lib) (s : State) (h : Handle) : Hush s.st (s.connected lib h).st := by
  unfold State.connected
  refine Hush.trans ?_ (Frame.tasks lib _ _).hush
  dsimp only [State.on]
  split
  · exact (Hush.of_log rfl).trans (Hush.retry _)
  · exact (Hush.of_log rfl).trans (Hush.retry _)

theorem Hush.assassinate (c : Core) (t : Pid) (k : Contract) : Hush c (c.assassinate t k) := by
  unfold Core.assassinate
  split
  · exact .refl c
  · split
    · exact .refl c
    · exact .say c (by simp [Item.ofConnect])

/-- What is not a connect brings nothing about connects. -/
theorem Hush.handle (lib : Lib) (s : State) (i : Input) (hi : ∀ h x w, i = .connect h x w → h.ok = false) :
    Hush s.st (s.handle lib i).st := by
  cases i with
  | own => exact .own lib s
  | exit pid =>
    dsimp only [State.handle]
    split
    · exact .refl _
    · exact .exit lib s pid
  | connect h x w =>
    dsimp only [State.handle]
    rw [hi h x w rfl]
    exact .refl _
  | prepareReply hs => exact .prepared _ _
  | lookup l => exact .lookup _ _
  | scale as => exact (Frame.scale lib s as).hush
  | restartAliases as => exact (Frame.restart lib s as).hush
  | restartGroups as => exact (Frame.restartBatches lib s as).hush
  | shutdown => exact (Frame.shutdown lib s).hush
  | fatal =>
    dsimp only [State.handle]
    split
    · exact (Hush.of_log rfl).trans (Frame.shutdown lib _).hush
    · exact .refl _
  | assassinate t k => exact .assassinate _ _ _

/-- A process that connects is turned down, or it is admitted and then approved. -/
theorem connect_answer (lib : Lib) (s : State) (h : Handle) (x : Ident) (w : Bool) :
    ((s.connect lib h x w).st.log = s.st.log ++ [.denied h x] ∧
      (1 < s.st.runlevel.toNat ∨ x ≠ 0 ∧ (s.st.singleton x).isSome)) ∨
    ∃ ext, (s.connect lib h x w).st.log = s.st.log ++ .admitted h x w :: ext ++ [.approved h x] ∧
      ∀ i ∈ ext, i.ofConnect = false := by
  unfold State.connect
  split
  · rename_i hr
    exact Or.inl ⟨rfl, Or.inl hr⟩
  · split
    · rename_i hx
      refine Or.inl ⟨?_, Or.inr hx⟩
      dsimp only [State.on, Core.say]
      unfold Core.adjust
      split
      · rfl
      · split <;> rfl
    · right
      dsimp only
      obtain ⟨ext, h1, h2⟩ := Hush.connected lib (s.on fun c => ({ c with
        singletons := if x ≠ 0 then c.singletons ++ [(x, h)] else c.singletons
        whitelisted := if w then c.whitelisted ++ [h.pid] else c.whitelisted } : Core).say [.admitted h x w]) h
      refine ⟨ext, ?_, h2⟩
      have e : ∀ t : State, (t.on fun c => c.say [.approved h x]).st.log = t.st.log ++ [.approved h x] := fun t => rfl
      rw [e, h1]
      simp [State.on, Core.say]

/-! ### Singletons -/

theorem run_fine (lib : Lib) (u : Setup) (is : List Input) :
    Always (Fine u.self.pid) ((State.start lib u).run lib is).st.log :=
  (run_good lib is _ (start_good lib u)).1.fine

/-- Between two admissions as the same singleton, the first process exits. -/
theorem singleton_alone (lib : Lib) (u : Setup) (is : List Input) {l1 l2 l3 : List Item} {h h' : Handle} {x : Ident}
    {w w' : Bool} (hl : ((State.start lib u).run lib is).st.log = l1 ++ .admitted h x w :: l2 ++ .admitted h' x w' :: l3)
    (hx : x ≠ 0) : .inp (.exit h.pid) ∈ l2 := by
  have := run_fine lib u is _ _ _ hl
  refine Classical.byContradiction fun hn => ?_
  exact this.2.2 hx h ⟨l1, l2, w, rfl, hn⟩

/-- After a shutdown request no process is admitted. -/
theorem no_admission_after_shutdown (lib : Lib) (u : Setup) (is : List Input) {l1 l2 : List Item}
    (hl : ((State.start lib u).run lib is).st.log = l1 ++ .inp .shutdown :: l2) (h : Handle) (x : Ident) (w : Bool) :
    .admitted h x w ∉ l2 := by
  intro hm
  obtain ⟨a, b, rfl⟩ := List.append_of_mem hm
  have := run_fine lib u is (l1 ++ .inp .shutdown :: a) (.admitted h x w) b (by rw [hl]; simp)
  exact this.2.1 (by simp)

/-! ### Assassinations -/

/-- A process that asked to be spared when it connected is not signalled before it has exited. -/
theorem whitelisted_spared (lib : Lib) (u : Setup) (is : List Input) {l1 l2 l3 : List Item} {h : Handle} {x : Ident}
    {k : Contract}
    (hl : ((State.start lib u).run lib is).st.log = l1 ++ .admitted h x true :: l2 ++ .signal h.pid k :: l3) :
    .inp (.exit h.pid) ∈ l2 := by
  have := run_fine lib u is _ _ _ hl
  refine Classical.byContradiction fun hn => ?_
  exact this.1 ⟨l1, l2, h, x, rfl, rfl, hn⟩

/-- The domain manager does not signal itself (before it is told that it has exited). -/
theorem manager_spared (lib : Lib) (u : Setup) (is : List Input) {l1 l2 : List Item} {k : Contract}
    (hl : ((State.start lib u).run lib is).st.log = l1 ++ .signal u.self.pid k :: l2) :
    .inp (.exit u.self.pid) ∈ l1 :=
  (run_fine lib u is _ _ _ hl).2 rfl

/-! ### Lookups -/

/-- A lookup of a singleton is answered with the process that is it; with nothing only if there is
none, and the lookup is direct or the domain is shutting down. (A process is the singleton that it was
admitted as until it exits; that needs that no process is admitted twice in its life.) -/
theorem singleton_lookup_answer (lib : Lib) (u : Setup) (is : List Input) {l1 l2 : List Item} {l : Lookup} {h : Handle}
    (hl : ((State.start lib u).run lib is).st.log = l1 ++ .lookupReply l h :: l2) (hx : l.ident ≠ 0) :
    (h = {} ∧ (l.direct = true ∨ Closing l1) ∧ ∀ h', ¬ Live l1 h' l.ident) ∨
      ((∃ w, .admitted h l.ident w ∈ l1) ∧ (OncePerLife l1 → Live l1 h l.ident)) :=
  (run_fine lib u is _ _ _ hl).1 hx

/-- A lookup is answered at most as many times as it was made. -/
theorem lookup_at_most_once (lib : Lib) (u : Setup) (is : List Input) (l : Lookup) :
    ((State.start lib u).run lib is).st.log.countP (Item.answers l) ≤
      ((State.start lib u).run lib is).st.log.count (.inp (.lookup l)) := by
  have := (run_good lib is _ (start_good lib u)).1.atMost l
  omega

/-- A lookup of a singleton that has not been answered, by a process that has not exited, is
for one that is not there. -/
theorem lookup_answered_when_there (lib : Lib) (u : Setup) (is : List Input) (l : Lookup) (hx : l.ident ≠ 0)
    {h : Handle} (hlive : Live ((State.start lib u).run lib is).st.log h l.ident)
    (hr : .inp (.exit l.requester.pid) ∉ ((State.start lib u).run lib is).st.log) :
    ((State.start lib u).run lib is).st.log.countP (Item.answers l) =
      ((State.start lib u).run lib is).st.log.count (.inp (.lookup l)) := by
  have g := run_good lib is _ (start_good lib u)
  have h1 := g.1.atMost l
  have h2 := g.1.atLeast l (Or.inl hx) hr
  have h3 : l ∉ ((State.start lib u).run lib is).st.lookups := fun hm => g.2 l hm hx h (g.1.live h _ hx hlive)
  rw [List.count_eq_zero.2 h3] at h1 h2
  omega

/-! ### Answers to connects -/

/-- What is true of an input and what was said. -/
theorem input_cases (lib : Lib) (s : State) (i : Input) (hs : s.stopped = false) :
    (∃ ext, (s.input lib i).st.log = s.st.log ++ .inp i :: ext ∧ (∀ j ∈ ext, j.ofConnect = false) ∧
      ∀ h x w, i = .connect h x w → h.ok = false) ∨
    ∃ h x w, i = .connect h x w ∧ h.ok = true ∧
      (((s.input lib i).st.log = s.st.log ++ [.inp i, .denied h x] ∧
          (1 < s.st.runlevel.toNat ∨ x ≠ 0 ∧ (s.st.singleton x).isSome)) ∨
        ∃ ext, (s.input lib i).st.log = s.st.log ++ [.inp i, .admitted h x w] ++ ext ++ [.approved h x] ∧
          ∀ j ∈ ext, j.ofConnect = false) := by
  unfold State.input
  rw [hs]
  by_cases hi : ∀ h x w, i = .connect h x w → h.ok = false
  · left
    obtain ⟨ext, h1, h2⟩ := Hush.handle lib (s.on fun c => c.say [.inp i]) i hi
    refine ⟨ext, ?_, h2, hi⟩
    simp only [Bool.false_eq_true, if_false]
    rw [h1]
    simp [State.on, Core.say]
  · right
    obtain ⟨h, hi⟩ := Classical.not_forall.1 hi
    obtain ⟨x, hi⟩ := Classical.not_forall.1 hi
    obtain ⟨w, hi⟩ := Classical.not_forall.1 hi
    have hi' : i = .connect h x w ∧ h.ok = true := by
      by_cases he : i = .connect h x w
      · refine ⟨he, ?_⟩
        cases hk : h.ok with
        | true => rfl
        | false => exact absurd (fun _ => hk) hi
      · exact absurd (fun e => absurd e he) hi
    obtain ⟨rfl, hok⟩ := hi'
    refine ⟨h, x, w, rfl, hok, ?_⟩
    simp only [Bool.false_eq_true, if_false]
    dsimp only [State.handle]
    rw [hok]
    simp only [if_true]
    rcases connect_answer lib (s.on fun c => c.say [.inp (.connect h x w)]) h x w with ⟨h1, h2⟩ | ⟨ext, h1, h2⟩
    · left
      refine ⟨?_, h2⟩
      rw [h1]; simp [State.on, Core.say]
    · right
      refine ⟨ext, ?_, h2⟩
      rw [h1]; simp [State.on, Core.say]

theorem ofConnect_replies {j : Item} (h : j.ofConnect = false) (a : Handle) (x : Ident) : j.replies a x = false := by
  cases j <;> simp_all [Item.ofConnect, Item.replies]

theorem ext_replies {ext : List Item} (h : ∀ j ∈ ext, j.ofConnect = false) (a : Handle) (x : Ident) :
    ext.countP (Item.replies a x) = 0 :=
  List.countP_eq_zero.2 fun j hj => by simp [ofConnect_replies (h j hj) a x]

/-- What the next theorem says of the logs. -/
def Answered (log : List Item) : Prop :=
  ∀ h x, h.ok = true → log.countP (Item.replies h x) = log.countP (Item.connects h x)

theorem connects_ext {ext : List Item} (hn : ∀ j ∈ ext, ∀ i, j ≠ .inp i) (a : Handle) (x : Ident) :
    ext.countP (Item.connects a x) = 0 :=
  List.countP_eq_zero.2 fun j hj => by
    have := hn j hj
    cases j <;> simp_all [Item.connects]

/-- The log and its inputs. -/
def Item.isInp : Item → Bool
  | .inp _ => true
  | _ => false

/-- New items, none of them inputs. -/
def Outs (c c' : Core) : Prop := ∃ ext, c'.log = c.log ++ ext ∧ ∀ i ∈ ext, i.isInp = false

theorem Outs.refl (c : Core) : Outs c c := ⟨[], by simp, by simp⟩

theorem Outs.trans {a b c : Core} (h1 : Outs a b) (h2 : Outs b c) : Outs a c := by
  obtain ⟨e1, h3, h4⟩ := h1
  obtain ⟨e2, h5, h6⟩ := h2
  refine ⟨e1 ++ e2, by rw [h5, h3, List.append_assoc], ?_⟩
  intro i hi
  rcases List.mem_append.1 hi with hi | hi
  · exact h4 i hi
  · exact h6 i hi

theorem Outs.say (c : Core) {items : List Item} (h : ∀ i ∈ items, i.isInp = false) : Outs c (c.say items) :=
  ⟨items, rfl, h⟩

theorem Frame.outs {c c' : Core} (f : Frame c c') : Outs c c' := by
  obtain ⟨ext, h1, h2⟩ := f.log
  refine ⟨ext, h1, fun i hi => ?_⟩
  have := h2 i hi
  cases i <;> simp_all [Item.ofTask, Item.isInp]

theorem Outs.of_log {c c' : Core} (h : c'.log = c.log) : Outs c c' := ⟨[], by simp [h], by simp⟩

theorem answer_outs {c : Core} {l : Lookup} {items : List Item} (ha : c.answer l = some items) :
    ∀ i ∈ items, i.isInp = false := by
  intro i hi
  have := answer_neutral ha i hi
  cases i <;> simp_all [Item.neutral, Item.isInp, Item.plain]

theorem Outs.retry (c : Core) : Outs c c.retry := by
  refine ⟨_, rfl, ?_⟩
  intro i hi
  obtain ⟨l, _, hi⟩ := List.mem_flatMap.1 hi
  cases ha : c.answer l with
  | none => simp [ha] at hi
  | some items => rw [ha] at hi; exact answer_outs ha i hi

theorem Outs.prepared (c : Core) (hs : List Handle) : Outs c (c.prepared hs) := by
  refine .say c ?_
  intro i hi
  obtain ⟨h, _, rfl⟩ := List.mem_map.1 hi
  split <;> rfl

theorem Outs.connected (lib : Lib) (s : State) (h : Handle) : Outs s.st (s.connected lib h).st := by
  unfold State.connected
  refine Outs.trans ?_ (Frame.tasks lib _ _).outs
  dsimp only [State.on]
  split
  · exact (Outs.of_log rfl).trans (Outs.retry _)
  · exact (Outs.of_log rfl).trans (Outs.retry _)

/-- A handler only writes what goes out. -/
theorem Outs.handle (lib : Lib) (s : State) (i : Input) : Outs s.st (s.handle lib i).st := by
  cases i with
  | own =>
    dsimp only [State.handle]
    unfold State.own
    split
    · exact .refl _
    · dsimp only
      split
      · exact (Outs.of_log rfl).trans (Frame.tasks lib _ _).outs
      · exact (Outs.of_log rfl).trans (Outs.prepared _ _)
  | exit pid =>
    dsimp only [State.handle]
    split
    · exact .refl _
    · unfold State.exit
      dsimp only
      refine Outs.trans ?_ (Frame.tasks lib _ _).outs
      dsimp only
      split
      · exact (Outs.of_log (remove_log _ _)).trans (Frame.scaleInstances lib _ _).outs
      · exact .of_log (remove_log _ _)
  | connect h x w =>
    dsimp only [State.handle]
    split
    · unfold State.connect
      split
      · exact .say _ (by simp [Item.isInp])
      · split
        · refine Outs.trans (b := s.st.adjust h.pid) (.of_log ?_) (.say _ (by simp [Item.isInp]))
          unfold Core.adjust
          split
          · rfl
          · split <;> rfl
        · dsimp only
          refine Outs.trans (b := (State.connected lib (s.on fun c => ({ c with
            singletons := if x ≠ 0 then c.singletons ++ [(x, h)] else c.singletons
            whitelisted := if w then c.whitelisted ++ [h.pid] else c.whitelisted } : Core).say [.admitted h x w]) h).st) ?_
            (.say _ (by simp [Item.isInp]))
          refine Outs.trans ?_ (Outs.connected lib _ h)
          exact ⟨[.admitted h x w], rfl, by simp [Item.isInp]⟩
    · exact .refl _
  | prepareReply hs => exact .prepared _ _
  | lookup l =>
    dsimp only [State.handle, State.on]
    unfold Core.lookup
    split
    · exact .say _ (answer_outs ‹_›)
    · exact .of_log rfl
  | scale as => exact (Frame.scale lib s as).outs
  | restartAliases as => exact (Frame.restart lib s as).outs
  | restartGroups as => exact (Frame.restartBatches lib s as).outs
  | shutdown => exact (Frame.shutdown lib s).outs
  | fatal =>
    dsimp only [State.handle]
    split
    · exact (Outs.of_log rfl).trans (Frame.shutdown lib _).outs
    · exact .refl _
  | assassinate t k =>
    dsimp only [State.handle, State.on]
    unfold Core.assassinate
    split
    · exact .refl _
    · split
      · exact .refl _
      · exact .say _ (by simp [Item.isInp])

/-- One input: it is logged, and then what goes out. -/
theorem input_outs (lib : Lib) (s : State) (i : Input) (hs : s.stopped = false) :
    ∃ ext, (s.input lib i).st.log = s.st.log ++ .inp i :: ext ∧ ∀ j ∈ ext, j.isInp = false := by
  obtain ⟨ext, h1, h2⟩ := Outs.handle lib (s.on fun c => c.say [.inp i]) i
  refine ⟨ext, ?_, h2⟩
  unfold State.input
  rw [hs]
  simp only [Bool.false_eq_true, if_false]
  rw [h1]
  simp [State.on, Core.say]

theorem input_stopped (lib : Lib) (s : State) (i : Input) (hs : s.stopped = true) : s.input lib i = s := by
  unfold State.input; rw [hs]; rfl

theorem answered_input (lib : Lib) (s : State) (i : Input) (ha : Answered s.st.log) : Answered (s.input lib i).st.log := by
  cases hs : s.stopped with
  | true => rw [input_stopped lib s i hs]; exact ha
  | false =>
    intro a y hok
    have h0 := ha a y hok
    rcases input_cases lib s i hs with ⟨ext, h1, h2, h3⟩ | ⟨h, x, w, rfl, hk, h1 | ⟨ext, h1, h2⟩⟩
    · obtain ⟨ext', h4, h5⟩ := input_outs lib s i hs
      have : ext' = ext := by
        have := h4.symm.trans h1
        simpa using this
      subst this
      rw [h1, List.countP_append, List.countP_append, List.countP_cons, List.countP_cons, ext_replies h2,
        connects_ext (ext := ext') (fun j hj i e => by have := h5 j hj; subst e; simp [Item.isInp] at this), h0]
      have e1 : Item.replies a y (.inp i) = false := rfl
      have e2 : Item.connects a y (.inp i) = false := by
        cases i <;> try rfl
        rename_i h x w
        have := h3 h x w rfl
        simp only [Item.connects, Bool.and_eq_false_iff, decide_eq_false_iff_not]
        left
        rintro rfl
        rw [hok] at this; cases this
      rw [e1, e2]
    · rw [h1.1, List.countP_append, List.countP_append, h0]
      simp [List.countP_cons, Item.replies, Item.connects]
    · obtain ⟨ext', h4, h5⟩ := input_outs lib s (.connect h x w) hs
      have : ext' = .admitted h x w :: ext ++ [.approved h x] := by
        have := h4.symm.trans h1
        simpa using this
      rw [this] at h5
      rw [h1, List.countP_append, List.countP_append, List.countP_append, List.countP_append, List.countP_append,
        List.countP_append, ext_replies h2,
        connects_ext (ext := ext) (fun j hj i e => by
          have := h5 j (by simp [hj])
          subst e; simp [Item.isInp] at this), h0]
      simp [List.countP_cons, Item.replies, Item.connects]

theorem answered_run (lib : Lib) : ∀ (is : List Input) (s : State), Answered s.st.log → Answered (s.run lib is).st.log
  | [], _, h => h
  | i :: is, s, h => answered_run lib is _ (answered_input lib s i h)

theorem start_tasks (lib : Lib) (u : Setup) : ∀ i ∈ (State.start lib u).st.log, i.ofTask = true := by
  unfold State.start
  obtain ⟨ext, h1, h2⟩ := (Frame.boot lib _).log
  rw [h1]
  simpa using h2

/-- Every process that asks to connect is told whether it may, once for each time it asks. -/
theorem connect_answered (lib : Lib) (u : Setup) (is : List Input) (h : Handle) (x : Ident) (hok : h.ok = true) :
    ((State.start lib u).run lib is).st.log.countP (Item.replies h x) =
      ((State.start lib u).run lib is).st.log.countP (Item.connects h x) := by
  refine answered_run lib is _ ?_ h x hok
  intro a y _
  have hs := start_tasks lib u
  rw [List.countP_eq_zero.2 ?_, List.countP_eq_zero.2 ?_]
  · intro j hj
    have := hs j hj
    cases j <;> simp_all [Item.ofTask, Item.connects]
  · intro j hj
    have := hs j hj
    cases j <;> simp_all [Item.ofTask, Item.replies]

/-- Why a process may be turned down: the domain is shutting down, or another process is the
singleton. An approved one was admitted. -/
def Just (before : List Item) : Item → Prop
  | .denied _ x => Closing before ∨
      x ≠ 0 ∧ ∃ h', (∃ w, .admitted h' x w ∈ before) ∧ (OncePerLife before → Live before h' x)
  | .approved h x => ∃ w, .admitted h x w ∈ before
  | _ => True

theorem just_hush {ext log : List Item} (h : Always Just log) (he : ∀ j ∈ ext, j.ofConnect = false) :
    Always Just (log ++ ext) := by
  refine h.append ext ?_
  intro i hi l
  have := he i hi
  cases i <;> simp_all [Item.ofConnect, Just]

theorem Closing.snoc_connect {log : List Item} (h : Closing log) (i : Item) : Closing (log ++ [i]) :=
  h.imp (List.mem_append_left _) (List.mem_append_left _)

theorem just_input {pm : Pid} (lib : Lib) (s : State) (i : Input) (hg : CGood pm s.st) (ha : Always Just s.st.log) :
    Always Just (s.input lib i).st.log := by
  cases hs : s.stopped with
  | true => rw [input_stopped lib s i hs]; exact ha
  | false =>
    rcases input_cases lib s i hs with ⟨ext, h1, h2, _⟩ | ⟨h, x, w, rfl, hk, ⟨h1, h2⟩ | ⟨ext, h1, h2⟩⟩
    · rw [h1, show s.st.log ++ .inp i :: ext = (s.st.log ++ [.inp i]) ++ ext by simp]
      exact just_hush (ha.snoc (a := .inp i) trivial) h2
    · rw [h1, show s.st.log ++ [.inp (.connect h x w), .denied h x] =
        (s.st.log ++ [.inp (.connect h x w)]) ++ [.denied h x] by simp]
      refine (ha.snoc (a := .inp (.connect h x w)) trivial).snoc ?_
      rcases h2 with h2 | ⟨hx, h2⟩
      · exact Or.inl ((hg.1.closing h2).snoc_connect _)
      · obtain ⟨h', h2⟩ := Option.isSome_iff_exists.1 h2
        have hm := lookup_some_mem h2
        refine Or.inr ⟨hx, h', ?_, ?_⟩
        · obtain ⟨w', hw⟩ := (hg.1.single _ hm).2
          exact ⟨w', List.mem_append_left _ hw⟩
        · intro ho
          exact ((hg.1.once ho.prefix).2 _ hm).keep (by simp)
    · rw [h1, show s.st.log ++ [.inp (.connect h x w), .admitted h x w] ++ ext ++ [.approved h x] =
        (((s.st.log ++ [.inp (.connect h x w)]) ++ [.admitted h x w]) ++ ext) ++ [.approved h x] by simp]
      refine (just_hush ((ha.snoc (a := .inp (.connect h x w)) trivial).snoc (a := .admitted h x w) trivial) h2).snoc ?_
      exact ⟨w, by simp⟩

theorem just_run {pm : Pid} (lib : Lib) : ∀ (is : List Input) (s : State), CGood pm s.st → Always Just s.st.log →
    Always Just (s.run lib is).st.log
  | [], _, _, h => h
  | i :: is, s, hg, h => just_run lib is _ (input_good hg i) (just_input lib s i hg h)

theorem run_just (lib : Lib) (u : Setup) (is : List Input) : Always Just ((State.start lib u).run lib is).st.log := by
  refine just_run lib is _ (start_good lib u) ?_
  have hs := start_tasks lib u
  intro l1 a l2 he
  have := hs a (by rw [he]; simp)
  cases a <;> simp_all [Item.ofTask, Just]

/-- A process is turned down only if the domain is shutting down, or if another process is the singleton it
wants to be. -/
theorem denied_with_reason (lib : Lib) (u : Setup) (is : List Input) {l1 l2 : List Item} {h : Handle} {x : Ident}
    (hl : ((State.start lib u).run lib is).st.log = l1 ++ .denied h x :: l2) :
    Closing l1 ∨ x ≠ 0 ∧ ∃ h', (∃ w, .admitted h' x w ∈ l1) ∧ (OncePerLife l1 → Live l1 h' x) :=
  run_just lib u is _ _ _ hl

/-- A process that is approved was admitted. -/
theorem approved_admitted (lib : Lib) (u : Setup) (is : List Input) {l1 l2 : List Item} {h : Handle} {x : Ident}
    (hl : ((State.start lib u).run lib is).st.log = l1 ++ .approved h x :: l2) : ∃ w, .admitted h x w ∈ l1 :=
  run_just lib u is _ _ _ hl

/-! ### Examples, and what does not hold -/

/-- A singleton that exits is replaced; one that comes while it is there is turned down.  A lookup
that waits is answered when it connects, and a spared process is not signalled. -/
def connectDemo : State :=
  demoRun [demoServer 1 6 false 2]
    [.own, .lookup ⟨⟨50, 50⟩, 1, 9, 0, false⟩, .connect ⟨100, 1100⟩ 9 true, .assassinate 100 .kill, .connect ⟨60, 60⟩ 9 false,
      .exit 100, .connect ⟨101, 1101⟩ 9 false, .assassinate 101 .kill, .lookup ⟨⟨50, 50⟩, 2, 9, 0, false⟩]

example : connectDemo.st.log =
    [.spawned ⟨.server, 1⟩ 100, .spawned ⟨.server, 1⟩ 101, .inp .own, .inp (.lookup ⟨⟨50, 50⟩, 1, 9, 0, false⟩),
      .inp (.connect ⟨100, 1100⟩ 9 true), .admitted ⟨100, 1100⟩ 9 true,
      .lookupReply ⟨⟨50, 50⟩, 1, 9, 0, false⟩ ⟨100, 1100⟩, .approved ⟨100, 1100⟩ 9, .inp (.assassinate 100 .kill),
      .inp (.connect ⟨60, 60⟩ 9 false), .denied ⟨60, 60⟩ 9, .inp (.exit 100), .inp (.connect ⟨101, 1101⟩ 9 false),
      .admitted ⟨101, 1101⟩ 9 false, .scaled [⟨.server, 1⟩], .bootDone,
      .approved ⟨101, 1101⟩ 9, .inp (.assassinate 101 .kill), .signal 101 .kill,
      .inp (.lookup ⟨⟨50, 50⟩, 2, 9, 0, false⟩), .lookupReply ⟨⟨50, 50⟩, 2, 9, 0, false⟩ ⟨101, 1101⟩] := by decide +kernel

/-- The full property: when the manager has ended, every lookup it has got has been answered, if
the process that asked has not exited. -/
def LookupsAnswered : Prop :=
  ∀ (lib : Lib) (u : Setup) (is : List Input) (l : Lookup), l.valid →
    ((State.start lib u).run lib is).stopped = true →
    .inp (.exit l.requester.pid) ∉ ((State.start lib u).run lib is).st.log →
    ((State.start lib u).run lib is).st.log.countP (Item.answers l) =
      ((State.start lib u).run lib is).st.log.count (.inp (.lookup l))

/-- It does not hold: a lookup that waits when the shutdown comes is never answered - only those that
come after it are answered with nothing (`handle.cpp:817-820`) - and the lookups are not tried again in a
shutdown, since no process may connect. -/
theorem lookup_lost_at_shutdown_refuted : ¬ LookupsAnswered := by
  intro h
  have := h demoLib (demoSetup []) [.lookup ⟨⟨50, 50⟩, 1, 9, 0, false⟩, .shutdown] ⟨⟨50, 50⟩, 1, 9, 0, false⟩
    (Or.inl (by decide)) (by decide +kernel) (by decide +kernel)
  revert this
  decide +kernel

theorem not_live {h : Handle} {x : Ident} (a b : List Item) (hb : ∀ w, .admitted h x w ∉ b) :
    ¬ Live (a ++ .inp (.exit h.pid) :: b) h x := by
  rintro ⟨l1, l2, w, he, hn⟩
  rcases List.append_eq_append_iff.1 he with ⟨m, h1, h2⟩ | ⟨m, h1, h2⟩
  · cases m with
    | nil => simp at h2
    | cons y m =>
      simp only [List.cons_append, List.cons.injEq] at h2
      exact hb w (by rw [h2.2]; simp)
  · cases m with
    | nil => simp at h2
    | cons y m =>
      simp only [List.cons_append, List.cons.injEq] at h2
      exact hn (by rw [h2.2]; simp)

/-- The full property: a lookup of a singleton is not answered with a process that has exited. -/
def LookupsLive : Prop :=
  ∀ (lib : Lib) (u : Setup) (is : List Input) (l1 l2 : List Item) (l : Lookup) (h : Handle), l.ident ≠ 0 →
    ((State.start lib u).run lib is).st.log = l1 ++ .lookupReply l h :: l2 → h.ok = true → Live l1 h l.ident

/-- It does not hold when a process connects twice, as two singletons: one of them stays when the process
exits (`state.cpp:342-353` erases one), and its place cannot be taken. -/
theorem stale_singleton_refuted : ¬ LookupsLive := by
  intro h
  have hl : (demoRun [] [.connect ⟨50, 50⟩ 8 false, .connect ⟨50, 50⟩ 9 false, .exit 50,
      .lookup ⟨⟨60, 60⟩, 1, 9, 0, false⟩]).st.log =
      ([.bootDone, .inp (.connect ⟨50, 50⟩ 8 false), .admitted ⟨50, 50⟩ 8 false, .approved ⟨50, 50⟩ 8,
        .inp (.connect ⟨50, 50⟩ 9 false), .admitted ⟨50, 50⟩ 9 false, .approved ⟨50, 50⟩ 9] ++
        .inp (.exit 50) :: [.inp (.lookup ⟨⟨60, 60⟩, 1, 9, 0, false⟩)]) ++ .lookupReply ⟨⟨60, 60⟩, 1, 9, 0, false⟩ ⟨50, 50⟩ :: [] := by
    decide +kernel
  exact not_live (h := ⟨50, 50⟩) _ _ (by simp) (h demoLib (demoSetup []) _ _ _ _ _ (by decide) hl (by decide))

end Casual.DManager
