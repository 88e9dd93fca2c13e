import Verif.DManager.Frame

/-! Batches that are scaled one after the other: what the coordinator does with the groups of a
boot or of a shutdown. -/
namespace Casual.DManager

open Casual.Task

/-- The group that scales the batch, and it has been started. -/
def IsRun (g : List Unit_) (b : Batch) : Prop := ∃ id, g = [⟨id, none, .scale b.members⟩]

/-- The group that scales the batch, and it has not been started. -/
def IsPend (g : List Unit_) (b : Batch) : Prop := ∃ id, g = [⟨id, some (.scale b.members), .idle⟩]

/-- The group of the last action. -/
def IsLast (g : List Unit_) (a : Act) : Prop := ∃ id, g = [⟨id, some a, .idle⟩]

/-- The groups that wait are those of the batches. -/
def Wait : List (List Unit_) → List Batch → Prop
  | [], [] => True
  | g :: gs, b :: bs => IsPend g b ∧ Wait gs bs
  | _, _ => False

/-- The groups that wait are those of the batches, of the last action, and then some. -/
def Queue (last : Act) (tl : List (List Unit_)) (gs : List (List Unit_)) (bs : List Batch) : Prop :=
  ∃ ws g, gs = ws ++ g :: tl ∧ Wait ws bs ∧ IsLast g last

theorem Wait.snoc {g : List Unit_} {b : Batch} (hg : IsPend g b) : ∀ {gs : List (List Unit_)} {bs : List Batch}, Wait gs bs →
    Wait (gs ++ [g]) (bs ++ [b])
  | [], [], _ => ⟨hg, trivial⟩
  | _ :: _, _ :: _, h => ⟨h.1, Wait.snoc hg h.2⟩
  | [], _ :: _, h => h.elim
  | _ :: _, [], h => h.elim

/-- What is proved of a sequence of batches: `G` before one is started, `R` when it has been
started, `O` when the last action is done. -/
structure Seq (lib : Lib) (bs : List Batch) (last : Act) (G : List Batch → Core → Prop) (R : List Batch → Batch → Core → Prop)
    (O : Core → Prop) : Prop where
  start : ∀ {pre b post c}, bs = pre ++ b :: post → G pre c → R pre b (c.scaleMembers lib b.members)
  finish : ∀ {pre b post c}, bs = pre ++ b :: post → R pre b c → c.settled b.members = true →
    G (pre ++ [b]) (c.say [.scaled b.members])
  ends : ∀ {c}, G bs c → O (act lib last .idle c).1
  abort : ∀ {c}, (act lib last .idle c).2.2 = .abort
  over : ∀ {c c'}, Frame c c' → O c → O c'

/-- Where the coordinator is. -/
def Conf (bs : List Batch) (last : Act) (R : List Batch → Batch → Core → Prop) (O : Core → Prop)
    (tl : List (List Unit_)) (conts : List (List Unit_)) (c : Core) : Prop :=
  (O c ∧ (tl = [] → conts = [])) ∨
  ∃ pre b post g gs, bs = pre ++ b :: post ∧ conts = g :: gs ∧ IsRun g b ∧ Queue last tl gs post ∧ R pre b c ∧
    c.settled b.members = false

section
variable {lib : Lib} {bs : List Batch} {last : Act} {G : List Batch → Core → Prop} {R : List Batch → Batch → Core → Prop}
  {O : Core → Prop}

theorem run_msg (k : Seq lib bs last G R O) (m : Msg) {pre post : List Batch} {b : Batch} (hb : bs = pre ++ b :: post)
    {g : List Unit_} (hg : IsRun g b) {c : Core} (hr : R pre b c) :
    ((groupMsg (ops lib) m g c).2.1 = [] ∧ G (pre ++ [b]) (groupMsg (ops lib) m g c).1) ∨
    (IsRun (groupMsg (ops lib) m g c).2.1 b ∧ R pre b (groupMsg (ops lib) m g c).1 ∧
      (groupMsg (ops lib) m g c).1.settled b.members = false) := by
  obtain ⟨id, rfl⟩ := hg
  have hm : unitMsg (ops lib) m (⟨id, none, .scale b.members⟩ : Unit_) c =
      if c.settled b.members then (c.say [.scaled b.members], ⟨id, none, .scale b.members⟩, .done)
      else (c, ⟨id, none, .scale b.members⟩, .pending) := by
    simp only [unitMsg, ops, handle]
    split <;> rfl
  simp only [groupMsg, hm]
  cases hs : c.settled b.members with
  | true =>
    left
    simp only [if_true]
    exact ⟨trivial, k.finish hb hr hs⟩
  | false =>
    right
    simp only [Bool.false_eq_true, if_false]
    exact ⟨⟨id, rfl⟩, hr, hs⟩

theorem pend_start (k : Seq lib bs last G R O) {pre post : List Batch} {b : Batch} (hb : bs = pre ++ b :: post)
    {g : List Unit_} (hg : IsPend g b) {c : Core} (hr : G pre c) :
    ((groupStart (ops lib) g c).2.1 = [] ∧ G (pre ++ [b]) (groupStart (ops lib) g c).1) ∨
    (IsRun (groupStart (ops lib) g c).2.1 b ∧ R pre b (groupStart (ops lib) g c).1 ∧
      (groupStart (ops lib) g c).1.settled b.members = false) := by
  obtain ⟨id, rfl⟩ := hg
  have hR := k.start hb hr
  have hm : unitStart (ops lib) (⟨id, some (.scale b.members), .idle⟩ : Unit_) c =
      if (c.scaleMembers lib b.members).settled b.members then
        ((c.scaleMembers lib b.members).say [.scaled b.members], ⟨id, none, .scale b.members⟩, .abort)
      else (c.scaleMembers lib b.members, ⟨id, none, .scale b.members⟩, .success) := by
    simp only [unitStart, ops, act]
    split <;> rfl
  simp only [groupStart, hm]
  cases hs : (c.scaleMembers lib b.members).settled b.members with
  | true =>
    left
    simp only [if_true]
    exact ⟨trivial, k.finish hb hR hs⟩
  | false =>
    right
    simp only [Bool.false_eq_true, if_false]
    exact ⟨⟨id, rfl⟩, hR, hs⟩

theorem last_start (k : Seq lib bs last G R O) {g : List Unit_} (hg : IsLast g last) {c : Core} (hr : G bs c) :
    (groupStart (ops lib) g c).2.1 = [] ∧ O (groupStart (ops lib) g c).1 := by
  obtain ⟨id, rfl⟩ := hg
  have h1 := k.ends hr
  have h2 := k.abort (c := c)
  simp only [groupStart, unitStart, ops, h2]
  exact ⟨trivial, h1⟩

theorem tail_msg {m : Msg} {tl : List (List Unit_)} {c : Core} :
    tl = [] → (coordMsg (ops lib) m ([] :: tl) c).2.1 = [] := by
  rintro rfl
  rw [coordMsg]
  simp [groupMsg]

/-- A message when a batch is over, or going on. -/
theorem conf_msg (k : Seq lib bs last G R O) (m : Msg) (tl : List (List Unit_)) : ∀ (post pre : List Batch)
    (g : List Unit_) (gs : List (List Unit_)) (c : Core), Queue last tl gs post →
    ((g = [] ∧ G pre c ∧ bs = pre ++ post) ∨ ∃ b, IsRun g b ∧ R pre b c ∧ bs = pre ++ b :: post) →
    Conf bs last R O tl (coordMsg (ops lib) m (g :: gs) c).2.1 (coordMsg (ops lib) m (g :: gs) c).1 := by
  intro post
  induction post with
  | nil =>
    rintro pre g gs c ⟨ws, gl, rfl, hw, hl⟩ h
    have hws : ws = [] := by cases ws with | nil => rfl | cons _ _ => exact hw.elim
    subst hws
    rw [List.nil_append]
    -- the group is over
    have over : ∀ c', G bs c' → Conf bs last R O tl
        (coordMsg (ops lib) m ((groupStart (ops lib) gl c').2.1 :: tl) (groupStart (ops lib) gl c').1).2.1
        (coordMsg (ops lib) m ((groupStart (ops lib) gl c').2.1 :: tl) (groupStart (ops lib) gl c').1).1 := by
      intro c' hG
      obtain ⟨h1, h2⟩ := last_start k hl hG
      rw [h1]
      exact Or.inl ⟨k.over ((frame_keeps lib).coordMsg m _ _) h2, tail_msg⟩
    rcases h with ⟨rfl, hG, hb⟩ | ⟨b, hg, hr, hb⟩
    · rw [coordMsg]
      simp only [groupMsg, List.isEmpty_nil, if_true]
      exact over c (by rw [hb]; simpa using hG)
    · rcases run_msg k m hb hg hr with ⟨h1, h2⟩ | ⟨h1, h2, h3⟩
      · rw [coordMsg]
        simp only [h1, List.isEmpty_nil, if_true]
        exact over _ (by rw [hb]; exact h2)
      · right
        refine ⟨pre, b, [], _, gl :: tl, hb, ?_, h1, ⟨[], gl, rfl, trivial, hl⟩, ?_, ?_⟩
        all_goals
          obtain ⟨id, hid⟩ := h1
          rw [coordMsg]
          simp only [hid, List.isEmpty_cons, Bool.false_eq_true, if_false]
        · exact h2
        · exact h3
  | cons nb post ih =>
    rintro pre g gs c ⟨ws, gl, rfl, hw, hl⟩ h
    obtain ⟨w, ws, rfl⟩ : ∃ w ws', ws = w :: ws' := by
      cases ws with | nil => exact hw.elim | cons w ws => exact ⟨w, ws, rfl⟩
    rw [List.cons_append]
    have q : Queue last tl (ws ++ gl :: tl) post := ⟨ws, gl, rfl, hw.2, hl⟩
    have over : ∀ pre' c', bs = pre' ++ nb :: post → G pre' c' → Conf bs last R O tl
        (coordMsg (ops lib) m ((groupStart (ops lib) w c').2.1 :: (ws ++ gl :: tl)) (groupStart (ops lib) w c').1).2.1
        (coordMsg (ops lib) m ((groupStart (ops lib) w c').2.1 :: (ws ++ gl :: tl)) (groupStart (ops lib) w c').1).1 := by
      intro pre' c' hb' hG
      rcases pend_start k hb' hw.1 hG with ⟨h1, h2⟩ | ⟨h1, h2, h3⟩
      · exact ih (pre' ++ [nb]) _ _ _ q (Or.inl ⟨h1, h2, by rw [hb']; simp⟩)
      · exact ih pre' _ _ _ q (Or.inr ⟨nb, h1, h2, hb'⟩)
    rcases h with ⟨rfl, hG, hb⟩ | ⟨b, hg, hr, hb⟩
    · rw [coordMsg]
      simp only [groupMsg, List.isEmpty_nil, if_true]
      exact over pre c hb hG
    · rcases run_msg k m hb hg hr with ⟨h1, h2⟩ | ⟨h1, h2, h3⟩
      · rw [coordMsg]
        simp only [h1, List.isEmpty_nil, if_true]
        exact over (pre ++ [b]) _ (by rw [hb]; simp) h2
      · right
        refine ⟨pre, b, nb :: post, _, w :: (ws ++ gl :: tl), hb, ?_, h1, ⟨w :: ws, gl, rfl, hw, hl⟩, ?_, ?_⟩
        all_goals
          obtain ⟨id, hid⟩ := h1
          rw [coordMsg]
          simp only [hid, List.isEmpty_cons, Bool.false_eq_true, if_false]
        · exact h2
        · exact h3

/-! ### The groups are given to the coordinator -/

/-- After some of the batches. -/
def Built (bs : List Batch) (G : List Batch → Core → Prop) (R : List Batch → Batch → Core → Prop) (n : List Batch)
    (conts : List (List Unit_)) (c : Core) : Prop :=
  (conts = [] ∧ G n c) ∨
  ∃ pre b post g gs, n = pre ++ b :: post ∧ (∃ more, bs = n ++ more) ∧ conts = g :: gs ∧ IsRun g b ∧ Wait gs post ∧ R pre b c ∧
    c.settled b.members = false

theorem built_then (k : Seq lib bs last G R O) {n more : List Batch} {b : Batch} (hb : bs = n ++ b :: more) {s : State}
    (h : Built bs G R n s.conts s.st) :
    Built bs G R (n ++ [b]) (s.step (ops lib) (.then_ [(.scale b.members, .idle)])).conts
      (s.step (ops lib) (.then_ [(.scale b.members, .idle)])).st := by
  have hp : IsPend (mkGroup s.seq [((.scale b.members : Act), (.idle : Body))]) b := ⟨⟨s.seq, 0⟩, rfl⟩
  simp only [Coord.step]
  generalize mkGroup s.seq [((.scale b.members : Act), (.idle : Body))] = w at hp
  rcases h with ⟨h1, h2⟩ | ⟨pre, b', post, g, gs, h1, h2, h3, h4, h5, h6, h7⟩
  · rw [h1]
    simp only [coordThen, List.nil_append, List.length_singleton, if_true, coordStart]
    rcases pend_start k hb hp h2 with ⟨h3, h4⟩ | ⟨h3, h4, h5⟩
    · left
      rw [h3]
      exact ⟨rfl, h4⟩
    · right
      refine ⟨n, b, [], _, [], rfl, ⟨more, by rw [hb]; simp⟩, ?_, h3, trivial, ?_, ?_⟩
      all_goals
        obtain ⟨id, hid⟩ := h3
        simp only [hid, List.isEmpty_cons, Bool.false_eq_true, if_false]
      · exact h4
      · exact h5
  · rw [h3]
    right
    have hlen : ((g :: gs ++ [w]).length = 1) = False := by simp
    simp only [coordThen, hlen, if_false]
    refine ⟨pre, b', post ++ [b], g, gs ++ [w], by rw [h1]; simp, ⟨more, by rw [hb]; simp⟩, rfl, h4, h5.snoc hp, h6, h7⟩

theorem built_all (k : Seq lib bs last G R O) : ∀ (more n : List Batch), bs = n ++ more → ∀ s : State,
    Built bs G R n s.conts s.st → Built bs G R bs (s.thenAll lib (scaleGroups more)).conts (s.thenAll lib (scaleGroups more)).st
  | [], n, hb, s, h => by
    have : bs = n := by simpa using hb
    rw [this] at h ⊢
    exact h
  | b :: more, n, hb, s, h =>
    built_all k more (n ++ [b]) (by rw [hb]; simp) _ (built_then k hb h)

theorem conf_start (k : Seq lib bs last G R O) {s : State} (hc : s.conts = []) (hG : G [] s.st) :
    Conf bs last R O [] (s.thenAll lib (scaleGroups bs ++ [[(last, .idle)]])).conts
      (s.thenAll lib (scaleGroups bs ++ [[(last, .idle)]])).st := by
  have h := built_all k bs [] rfl s (Or.inl ⟨hc, hG⟩)
  have e : s.thenAll lib (scaleGroups bs ++ [[(last, .idle)]]) =
      (s.thenAll lib (scaleGroups bs)).step (ops lib) (.then_ [(last, .idle)]) := by
    simp [State.thenAll]
  rw [e]
  generalize s.thenAll lib (scaleGroups bs) = t at h
  have hp : IsLast (mkGroup t.seq [(last, (.idle : Body))]) last := ⟨⟨t.seq, 0⟩, rfl⟩
  simp only [Coord.step]
  generalize mkGroup t.seq [(last, (.idle : Body))] = w at hp
  rcases h with ⟨h1, h2⟩ | ⟨pre, b', post, g, gs, h1, h2, h3, h4, h5, h6, h7⟩
  · rw [h1]
    simp only [coordThen, List.nil_append, List.length_singleton, if_true, coordStart]
    obtain ⟨h3, h4⟩ := last_start k hp h2
    left
    rw [h3]
    exact ⟨h4, fun _ => rfl⟩
  · rw [h3]
    right
    have hlen : ((g :: gs ++ [w]).length = 1) = False := by simp
    simp only [coordThen, hlen, if_false]
    exact ⟨pre, b', post, g, gs ++ [w], h1, rfl, h4, ⟨gs, w, rfl, h5, hp⟩, h6, h7⟩

/-- Other groups come after. -/
theorem conf_then (k : Seq lib bs last G R O) {tl : List (List Unit_)} {s : State} (g : List (Act × Body))
    (h : Conf bs last R O tl s.conts s.st) :
    ∃ tl', Conf bs last R O tl' (s.step (ops lib) (.then_ g)).conts (s.step (ops lib) (.then_ g)).st := by
  rcases h with ⟨h1, _⟩ | ⟨pre, b, post, g', gs, h1, h2, h3, ⟨ws, gl, rfl, hw, hl⟩, h5, h6⟩
  · exact ⟨[[]], Or.inl ⟨k.over (Frame.then_ lib s g) h1, by simp⟩⟩
  · refine ⟨tl ++ [mkGroup s.seq g], Or.inr ?_⟩
    simp only [Coord.step]
    rw [h2]
    have hlen : ((g' :: (ws ++ gl :: tl) ++ [mkGroup s.seq g]).length = 1) = False := by simp
    simp only [coordThen, hlen, if_false]
    exact ⟨pre, b, post, g', _, h1, rfl, h3, ⟨ws, gl, by simp, hw, hl⟩, h5, h6⟩

theorem conf_thenAll (k : Seq lib bs last G R O) : ∀ (gs : List (List (Act × Body))) {tl : List (List Unit_)} {s : State},
    Conf bs last R O tl s.conts s.st → ∃ tl', Conf bs last R O tl' (s.thenAll lib gs).conts (s.thenAll lib gs).st
  | [], tl, _, h => ⟨tl, h⟩
  | g :: gs, _, _, h => by
    obtain ⟨tl', h'⟩ := conf_then k g h
    exact conf_thenAll k gs h'

/-- A message after a change of the state. -/
theorem conf_tasks (k : Seq lib bs last G R O) {tl : List (List Unit_)} {s : State} (m : Msg) {pre post : List Batch} {b : Batch}
    {g : List Unit_} {gs : List (List Unit_)} (h1 : bs = pre ++ b :: post) (h2 : s.conts = g :: gs) (h3 : IsRun g b)
    (h4 : Queue last tl gs post) (h5 : R pre b s.st) : Conf bs last R O tl (s.tasks lib m).conts (s.tasks lib m).st := by
  have := conf_msg k m tl post pre g gs s.st h4 (Or.inr ⟨b, h3, h5, h1⟩)
  rw [← h2] at this
  exact this

end

end Casual.DManager
