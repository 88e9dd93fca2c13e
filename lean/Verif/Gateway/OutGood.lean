import Verif.Gateway.OutTrans
/-!
The main invariant of the outbound group, for histories where no service call, queue request or
hang up of a conversation fails to be sent.
-/
namespace Casual.Gateway.Out

/-- The answer the requester gets if the connection is lost. -/
def lostRep : Kind → Rep
  | .call => ⟨svcErr, 0⟩
  | _ => ⟨0, 0⟩

/-- Requests with a destination in `reply::Destination`. -/
def viaDest : Kind → Bool
  | .prepare => true
  | .commit => true
  | .rollback => true
  | .discovery => true
  | _ => false

/-- Why a message is sent: `l` is what has been observed before. -/
def just : Obs → List Obs → Prop
  | .reply ipc c k r, l =>
    if work k then
      ∃ d g, .req d c ipc k g ∈ l ∧ (∀ g', g = some g' → .involved g' d ∈ l) ∧
        ((∃ d', .got d' c k r ∈ l) ∨ (.closed d ∈ l ∧ r = lostRep k))
    else if viaDest k then
      ∃ d k' g, .req d c ipc k' g ∈ l ∧ viaDest k' ∧
        ((∃ d', .got d' c k r ∈ l) ∨ (k = .discovery ∧ k' = .discovery ∧ r = ⟨0, 0⟩))
    else ∃ d g, .req d c ipc k g ∈ l ∧ ∃ d', .got d' c k r ∈ l
  | .refused ipc c, l => ∃ d g, .req d c ipc .call g ∈ l
  | .tcp d c k g, l => live d l ∧ ∃ ipc, .req d c ipc k g ∈ l
  | .toLocal ipc c _ _, l => ∃ d g, .req d c ipc .conv g ∈ l
  | .advertised d sv, l => live d l ∧ ∃ sv' q, .found d sv' q ∈ l ∧ sv = sv'.map fun x => (x.1, x.2 + 1)
  | .advertisedQ d q, l => live d l ∧ ∃ sv', .found d sv' q ∈ l
  | _, _ => True

/-- All that is sent is justified. -/
def Good : List Obs → Prop
  | [] => True
  | o :: l => just o l ∧ Good l

structure Inv (s : State) : Prop where
  live : LiveOk s
  keys : ∀ t ∈ s.tasks, connected t.key s = true
  tidy : Tidy s.trans
  told : ∀ g d, has g d s.trans = told g d s.log
  asked : ∀ t ∈ s.tasks, ∃ g, .req t.key t.corr t.ipc t.kind g ∈ s.log ∧
    ∀ g', g = some g' → .involved g' t.key ∈ s.log
  dests : ∀ e ∈ s.dest, ∃ k g, .req e.conn e.corr e.ipc k g ∈ s.log ∧ viaDest k = true
  good : Good s.log

def UsedOk (s : State) : Prop := ∀ g d, used g d s.log = true → told g d s.log = true

def Ok (s : State) : Prop := Inv s ∧ UsedOk s

/-- Observations that change neither connections nor transactions. -/
def quiet : Obs → Bool
  | .connected _ => false
  | .closed _ => false
  | .involved _ _ => false
  | .disassociate _ => false
  | .tcp _ _ _ (some _) => false
  | _ => true

theorem told_quiet {o : Obs} (h : quiet o = true) (g d l) : told g d (o :: l) = told g d l := by
  cases o <;> first | rfl | simp [quiet] at h

theorem used_quiet {o : Obs} (h : quiet o = true) (g d l) : used g d (o :: l) = used g d l := by
  cases o <;> first | rfl | (simp [quiet] at h; done) | skip
  rename_i d c k g
  cases g <;> first | rfl | simp [quiet] at h

theorem still_quiet {o : Obs} (h : quiet o = true) : still o = true := by
  cases o <;> first | rfl | simp [quiet] at h

theorem told_mem {g d : Nat} {l : List Obs} (h : told g d l = true) : .involved g d ∈ l := by
  induction l with
  | nil => simp [told] at h
  | cons o l ih =>
    cases o <;> simp only [told, Bool.or_eq_true, Bool.and_eq_true, beq_iff_eq] at h <;>
      first | exact List.mem_cons_of_mem _ (ih h) | exact List.mem_cons_of_mem _ (ih h.2) | skip
    rcases h with h | ⟨rfl, rfl⟩
    · exact List.mem_cons_of_mem _ (ih h)
    · exact List.mem_cons_self ..

theorem inv_emit' {o s} (hl : LiveOk (emit o s)) (ht : ∀ g d, told g d (o :: s.log) = told g d s.log)
    (hj : just o s.log) (hs : Inv s) : Inv (emit o s) where
  live := hl
  keys := hs.keys
  tidy := hs.tidy
  told := fun g d => (hs.told g d).trans (ht g d).symm
  asked := fun t h => by
    obtain ⟨g, h1, h2⟩ := hs.asked t h
    exact ⟨g, List.mem_cons_of_mem _ h1, fun g' hg => List.mem_cons_of_mem _ (h2 g' hg)⟩
  dests := fun e h => by
    obtain ⟨k, g, h1, h2⟩ := hs.dests e h
    exact ⟨k, g, List.mem_cons_of_mem _ h1, h2⟩
  good := ⟨hj, hs.good⟩

theorem inv_emit {o s} (hq : quiet o = true) (hj : just o s.log) (hs : Inv s) : Inv (emit o s) :=
  inv_emit' (liveOk_emit (still_quiet hq) hs.live) (told_quiet hq · · _) hj hs

theorem used_emit {o s} (hq : quiet o = true) (hs : UsedOk s) : UsedOk (emit o s) := by
  intro g d h
  rw [emit_log] at h ⊢
  rw [used_quiet hq] at h; rw [told_quiet hq]; exact hs g d h

theorem ok_emit {o s} (hq : quiet o = true) (hj : just o s.log) (hs : Ok s) : Ok (emit o s) :=
  ⟨inv_emit hq hj hs.1, used_emit hq hs.2⟩

theorem ok_congr {s t : State} (h1 : t.conns = s.conns) (h2 : t.tasks = s.tasks) (h3 : t.trans = s.trans)
    (h4 : t.dest = s.dest) (h5 : t.log = s.log ∨ ∃ p, t.log = .metrics p :: s.log) (hs : Ok s) : Ok t := by
  have key : ∀ u : State, u.conns = s.conns → u.tasks = s.tasks → u.trans = s.trans → u.dest = s.dest →
      u.log = s.log → Ok u := by
    intro u h1 h2 h3 h4 h5
    have hc : ∀ d, connected d u = connected d s := fun d => by unfold connected; rw [h1]
    refine ⟨⟨fun d => by rw [hc, h5]; exact hs.1.live d, fun t ht => ?_, h3 ▸ hs.1.tidy, fun g d => ?_, ?_, ?_, h5 ▸ hs.1.good⟩, ?_⟩
    · rw [hc]; exact hs.1.keys t (h2 ▸ ht)
    · rw [h3, h5]; exact hs.1.told g d
    · rw [h2, h5]; exact hs.1.asked
    · rw [h4, h5]; exact hs.1.dests
    · intro g d; rw [h5]; exact hs.2 g d
  rcases h5 with h5 | ⟨p, h5⟩
  · exact key t h1 h2 h3 h4 h5
  · have := ok_emit (o := .metrics p) rfl trivial (key { t with log := s.log } h1 h2 h3 h4 rfl)
    have e : emit (.metrics p) { t with log := s.log } = t := by
      unfold emit; rw [← h5]
    rwa [e] at this

theorem ok_metric {c k s} (hs : Ok s) : Ok (metric c k s) :=
  ok_congr (by simp) (by simp) (by simp) (by simp) (metric_log c k s) hs

theorem ok_force {s} (hs : Ok s) : Ok (forceMetric s) :=
  ok_congr (by simp) (by simp) (by simp) (by simp) (force_log s) hs

theorem ok_unadv {d s} (hs : Ok s) : Ok (unadvertise d s) := by
  unfold unadvertise; split
  · exact ok_emit rfl trivial hs
  · exact hs

/-- What the log looks like while units fail. -/
theorem good_failTask {t : Task} {s : State} (hg : Good s.log)
    (ha : ∃ g, .req t.key t.corr t.ipc t.kind g ∈ s.log ∧ ∀ g', g = some g' → .involved g' t.key ∈ s.log)
    (hc : .closed t.key ∈ s.log) : Good (failTask t s).log ∧ ∀ o ∈ s.log, o ∈ (failTask t s).log := by
  obtain ⟨g, h1, h2⟩ := ha
  have hj : work t.kind = true → just (.reply t.ipc t.corr t.kind (lostRep t.kind)) s.log := by
    intro hw
    show (if work t.kind = true then _ else _); rw [if_pos hw]
    exact ⟨t.key, g, h1, h2, Or.inr ⟨hc, rfl⟩⟩
  unfold failTask
  split <;> rename_i hk <;> first | rw [hk] at hj | skip
  · have hg' : Good (emit (.reply t.ipc t.corr .call ⟨svcErr, 0⟩) s).log := ⟨hj rfl, hg⟩
    rcases metric_log t.corr .call (emit (.reply t.ipc t.corr .call ⟨svcErr, 0⟩) s) with h | ⟨p, h⟩ <;> rw [h]
    · exact ⟨hg', fun o ho => List.mem_cons_of_mem _ ho⟩
    · exact ⟨⟨trivial, hg'⟩, fun o ho => List.mem_cons_of_mem _ (List.mem_cons_of_mem _ ho)⟩
  · exact ⟨⟨hj rfl, hg⟩, fun o ho => List.mem_cons_of_mem _ ho⟩
  · exact ⟨⟨hj rfl, hg⟩, fun o ho => List.mem_cons_of_mem _ ho⟩
  · exact ⟨hg, fun o ho => ho⟩

theorem good_foldFail (ts : List Task) (s : State) (d : Nat) (hg : Good s.log)
    (ha : ∀ t ∈ ts, t.key = d ∧ ∃ g, .req t.key t.corr t.ipc t.kind g ∈ s.log ∧ ∀ g', g = some g' → .involved g' t.key ∈ s.log)
    (hc : ts = [] ∨ .closed d ∈ s.log) :
    Good (ts.foldl (fun s t => failTask t s) s).log ∧
    ∀ o ∈ s.log, o ∈ (ts.foldl (fun s t => failTask t s) s).log := by
  induction ts generalizing s with
  | nil => exact ⟨hg, fun o h => h⟩
  | cons t ts ih =>
    have hc' : .closed d ∈ s.log := hc.elim (fun h => by cases h) id
    obtain ⟨hk, ht⟩ := ha t (List.mem_cons_self ..)
    obtain ⟨g1, g2⟩ := good_failTask hg ht (hk ▸ hc')
    obtain ⟨g3, g4⟩ := ih (failTask t s) g1 (fun u hu => by
      obtain ⟨h1, g, h2, h3⟩ := ha u (List.mem_cons_of_mem _ hu)
      exact ⟨h1, g, g2 _ h2, fun g' hg' => g2 _ (h3 g' hg')⟩) (Or.inr (g2 _ hc'))
    exact ⟨g3, fun o ho => g4 o (g2 o ho)⟩

theorem ok_lost {d s} (hs : Ok s) : Ok (lost d s) := by
  have hl := liveOk_lost (d := d) hs.1.live
  -- the log
  have hlog : Good (lost d s).log ∧ ∀ o ∈ s.log, o ∈ (lost d s).log := by
    rw [lost_log]; unfold lostMid
    cases hc : connected d s with
    | true =>
      have e : (if connected d (unadvertise d s) then emit (.closed d) (unadvertise d s) else unadvertise d s) =
          emit (.closed d) (emit (.unadvertised d) s) := by
        rw [unadv_connected, if_pos hc]; simp [unadvertise, hc]
      rw [e]
      obtain ⟨h1, h2⟩ := good_foldFail (s.tasks.filter (·.key = d)) (emit (.closed d) (emit (.unadvertised d) s)) d
        ⟨trivial, trivial, hs.1.good⟩ (fun t ht => by
          obtain ⟨ht, hk⟩ := List.mem_filter.mp ht
          obtain ⟨g, h1, h2⟩ := hs.1.asked t ht
          exact ⟨by simpa using hk, g, by simp [h1], fun g' hg => by simp [h2 g' hg]⟩) (Or.inr (by simp))
      exact ⟨h1, fun o ho => h2 o (by simp [ho])⟩
    | false =>
      have e : (if connected d (unadvertise d s) then emit (.closed d) (unadvertise d s) else unadvertise d s) = s := by
        rw [unadv_connected, if_neg (by simp [hc])]; simp [unadvertise, hc]
      rw [e]
      have : s.tasks.filter (·.key = d) = [] := by
        rw [List.filter_eq_nil_iff]
        intro t ht hk
        simp only [decide_eq_true_eq] at hk
        have := hs.1.keys t ht
        rw [hk, hc] at this; cases this
      obtain ⟨h1, h2⟩ := good_foldFail (s.tasks.filter (·.key = d)) s d hs.1.good (fun t ht => by rw [this] at ht; cases ht) (Or.inl this)
      exact ⟨h1, h2⟩
  have htasks : ∀ t ∈ (lost d s).tasks, t ∈ s.tasks ∧ t.key ≠ d := by
    intro t ht; rw [lost_tasks] at ht
    have := List.mem_filter.mp ht
    exact ⟨this.1, by simpa using this.2⟩
  cases hc : connected d s with
  | true =>
    have htr : (lost d s).trans = extractTrans d s.trans := by rw [lost_eq, if_pos hc]
    have hde : (lost d s).dest = s.dest.filter (·.conn ≠ d) := by rw [lost_eq, if_pos hc]
    refine ⟨⟨hl, ?_, htr ▸ tidy_extract hs.1.tidy, ?_, ?_, ?_, hlog.1⟩, ?_⟩
    · intro t ht
      obtain ⟨h1, h2⟩ := htasks t ht
      rw [lost_connected, hs.1.keys t h1]; simpa using h2
    · intro g d'
      rw [htr, has_extract hs.1.tidy, view_lost (told_neutral g d') hc, hs.1.told]; rfl
    · intro t ht
      obtain ⟨g, h1, h2⟩ := hs.1.asked t (htasks t ht).1
      exact ⟨g, hlog.2 _ h1, fun g' hg => hlog.2 _ (h2 g' hg)⟩
    · intro e he
      rw [hde] at he
      obtain ⟨k, g, h1, h2⟩ := hs.1.dests e (List.mem_filter.mp he).1
      exact ⟨k, g, hlog.2 _ h1, h2⟩
    · intro g d' h
      rw [view_lost (used_neutral g d') hc] at h
      rw [view_lost (told_neutral g d') hc]
      simp only [used, told, Bool.and_eq_true] at h ⊢
      exact ⟨h.1, hs.2 g d' h.2⟩
  | false =>
    have htr : (lost d s).trans = s.trans := by
      rw [lost_eq, if_neg (by simp [hc])]; unfold lostMid; simp [unadvertise, hc]
    have hde : (lost d s).dest = s.dest := by
      rw [lost_eq, if_neg (by simp [hc])]; unfold lostMid; simp [unadvertise, hc]
    refine ⟨⟨hl, ?_, htr ▸ hs.1.tidy, ?_, ?_, ?_, hlog.1⟩, ?_⟩
    · intro t ht
      obtain ⟨h1, h2⟩ := htasks t ht
      rw [lost_connected, hs.1.keys t h1]; simpa using h2
    · intro g d'
      rw [htr, view_lost_not (told_neutral g d') hc, hs.1.told]
    · intro t ht
      obtain ⟨g, h1, h2⟩ := hs.1.asked t (htasks t ht).1
      exact ⟨g, hlog.2 _ h1, fun g' hg => hlog.2 _ (h2 g' hg)⟩
    · intro e he
      rw [hde] at he
      obtain ⟨k, g, h1, h2⟩ := hs.1.dests e he
      exact ⟨k, g, hlog.2 _ h1, h2⟩
    · intro g d' h
      rw [view_lost_not (used_neutral g d') hc] at h
      rw [view_lost_not (told_neutral g d') hc]
      exact hs.2 g d' h

theorem ok_send {ok d o s} (hq : quiet o = true) (hj : connected d s = true → just o s.log) (hs : Ok s) :
    Ok (send ok d o s) := by
  unfold send; split
  · split
    · exact ok_emit hq (hj (by assumption)) hs
    · exact ok_emit rfl trivial (ok_lost hs)
  · exact hs

/-! ### a new request -/

theorem involve_inv {g d s} (hc : connected d s = true) (hs : Inv s) :
    Inv (involve g d s) ∧ (∀ o ∈ s.log, o ∈ (involve g d s).log) ∧
    (∀ g', g = some g' → told g' d (involve g d s).log = true) ∧
    (∀ g' d', told g' d' s.log = true → told g' d' (involve g d s).log = true) ∧
    (∀ g' d', used g' d' (involve g d s).log = used g' d' s.log) := by
  cases g with
  | none => exact ⟨hs, fun o h => h, fun _ h => (by cases h), fun _ _ h => h, fun _ _ => rfl⟩
  | some g =>
    have e := associate_snd (g := g) (d := d) hs.tidy.keys
    unfold involve; dsimp only
    cases hh : has g d s.trans with
    | true =>
      rw [hh] at e
      simp only [e, Bool.not_true, Bool.false_eq_true, if_false]
      have hsame : ∀ g' d', has g' d' (associate g d s.trans).1 = has g' d' s.trans := by
        intro g' d'; rw [has_associate]
        cases hx : (g == g' && d == d') with
        | false => simp
        | true =>
          simp only [Bool.and_eq_true, beq_iff_eq] at hx
          obtain ⟨rfl, rfl⟩ := hx
          simp [hh]
      refine ⟨⟨hs.live, hs.keys, tidy_associate hs.tidy, fun g' d' => (hsame g' d').trans (hs.told g' d'), hs.asked, hs.dests, hs.good⟩,
        fun o h => h, fun g' hg => ?_, fun _ _ h => h, fun _ _ => by first | rfl | trivial⟩
      injection hg with hg; subst hg
      show told g d s.log = true
      rw [← hs.told]; exact hh
    | false =>
      rw [hh] at e
      have hc' : connected d { s with trans := (associate g d s.trans).1 } = true := hc
      simp only [e, Bool.not_false, if_true, hc']
      refine ⟨⟨liveOk_emit rfl hs.live, hs.keys, tidy_associate hs.tidy, ?_, ?_, ?_, ⟨trivial, hs.good⟩⟩, ?_, ?_, ?_, ?_⟩
      · intro g' d'
        show has g' d' (associate g d s.trans).1 = told g' d' (.involved g d :: s.log)
        rw [has_associate, hs.told]; rfl
      · intro t ht
        obtain ⟨g', h1, h2⟩ := hs.asked t ht
        exact ⟨g', List.mem_cons_of_mem _ h1, fun x hx => List.mem_cons_of_mem _ (h2 x hx)⟩
      · intro x hx
        obtain ⟨k, g', h1, h2⟩ := hs.dests x hx
        exact ⟨k, g', List.mem_cons_of_mem _ h1, h2⟩
      · intro o ho; exact List.mem_cons_of_mem _ ho
      · intro g' hg
        injection hg with hg; subst hg
        simp [emit, told]
      · intro g' d' h; simp [emit, told, h]
      · intro g' d'; rfl

theorem involve_add (g d t s) : involve g d (addTask t s) = addTask t (involve g d s) := by
  unfold involve addTask
  cases g with
  | none => rfl
  | some g =>
    dsimp only
    have : ∀ x : List (Nat × List Nat), connected d { s with tasks := s.tasks ++ [t], trans := x } = connected d { s with trans := x } := fun _ => rfl
    split
    · rw [this]; split <;> rfl
    · rfl

theorem inv_add {t s} (hs : Inv s) (hc : connected t.key s = true)
    (ha : ∃ g, .req t.key t.corr t.ipc t.kind g ∈ s.log ∧ ∀ g', g = some g' → .involved g' t.key ∈ s.log) :
    Inv (addTask t s) where
  live := hs.live
  keys := fun u hu => by
    rw [add_tasks, List.mem_append] at hu
    rcases hu with hu | hu
    · exact hs.keys u hu
    · rw [List.mem_singleton] at hu; subst hu; exact hc
  tidy := hs.tidy
  told := hs.told
  asked := fun u hu => by
    rw [add_tasks, List.mem_append] at hu
    rcases hu with hu | hu
    · exact hs.asked u hu
    · rw [List.mem_singleton] at hu; subst hu; exact ha
  dests := hs.dests
  good := hs.good

/-- `involve` and the new unit, in a state where the request may have been sent already. -/
theorem inv_request {g t s} (hc : connected t.key s = true) (hr : .req t.key t.corr t.ipc t.kind g ∈ s.log) (hs : Inv s) :
    Inv (involve g t.key (addTask t s)) := by
  rw [involve_add]
  obtain ⟨h1, h2, h3, _, _⟩ := involve_inv (g := g) hc hs
  exact inv_add h1 (by rw [inv_connected]; exact hc) ⟨g, h2 _ hr, fun g' hg => told_mem (h3 g' hg)⟩

/-- First sent, then the unit is added and TM is told. -/
theorem ok_sendFirst {g t s} (hc : connected t.key s = true) (hr : .req t.key t.corr t.ipc t.kind g ∈ s.log) (hs : Ok s) :
    Ok (involve g t.key (addTask t (emit (.tcp t.key t.corr t.kind g) s))) := by
  have hj : just (.tcp t.key t.corr t.kind g) s.log := ⟨by rw [← hs.1.live]; exact hc, t.ipc, hr⟩
  have h1 : Inv (emit (.tcp t.key t.corr t.kind g) s) :=
    inv_emit' (liveOk_emit rfl hs.1.live) (fun _ _ => rfl) hj hs.1
  refine ⟨inv_request hc (List.mem_cons_of_mem _ hr) h1, ?_⟩
  rw [involve_add]
  obtain ⟨_, _, h3, h4, h5⟩ := involve_inv (s := emit (.tcp t.key t.corr t.kind g) s) (g := g) (d := t.key) hc h1
  intro g' d' h
  rw [add_log] at h ⊢
  rw [h5] at h
  cases g with
  | none => exact h4 _ _ (hs.2 g' d' h)
  | some g0 =>
    simp only [emit_log, used, Bool.or_eq_true, Bool.and_eq_true, beq_iff_eq] at h
    rcases h with h | ⟨rfl, rfl⟩
    · exact h4 _ _ (hs.2 g' d' h)
    · exact h3 g0 rfl

/-- First the unit is added and TM is told, then the request is sent. -/
theorem ok_sendLast {ok g t s} (hc : connected t.key s = true) (hr : .req t.key t.corr t.ipc t.kind g ∈ s.log) (hs : Ok s) :
    Ok (send ok t.key (.tcp t.key t.corr t.kind g) (involve g t.key (addTask t s))) := by
  have h1 : Inv (involve g t.key (addTask t s)) := inv_request hc hr hs.1
  obtain ⟨_, hmem, h3, h4, h5⟩ := involve_inv (g := g) (d := t.key) hc hs.1
  have hu : UsedOk (involve g t.key (addTask t s)) := by
    rw [involve_add]
    intro g' d' h
    rw [add_log] at h ⊢
    rw [h5] at h
    exact h4 _ _ (hs.2 g' d' h)
  have hc' : connected t.key (involve g t.key (addTask t s)) = true := by rw [inv_connected]; exact hc
  unfold send
  rw [if_pos hc']
  split
  · have hm : .req t.key t.corr t.ipc t.kind g ∈ (involve g t.key (addTask t s)).log := by
      rw [involve_add, add_log]; exact hmem _ hr
    refine ⟨inv_emit' (liveOk_emit rfl h1.live) (fun _ _ => rfl) ⟨by rw [← h1.live]; exact hc', t.ipc, hm⟩ h1, ?_⟩
    intro g' d' h
    cases g with
    | none => exact hu g' d' h
    | some g0 =>
      simp only [emit_log, used, Bool.or_eq_true, Bool.and_eq_true, beq_iff_eq] at h
      show told g' d' (involve (some g0) t.key (addTask t s)).log = true
      rcases h with h | ⟨rfl, rfl⟩
      · exact hu g' d' h
      · rw [involve_add, add_log]; exact h3 g0 rfl
  · exact ok_emit rfl trivial (ok_lost ⟨h1, hu⟩)

/-! ### replies -/

theorem ok_sub {s t : State} (h1 : t.conns = s.conns) (h2 : ∀ u ∈ t.tasks, u ∈ s.tasks) (h3 : t.trans = s.trans)
    (h4 : ∀ e ∈ t.dest, e ∈ s.dest) (h5 : t.log = s.log) (hs : Ok s) : Ok t := by
  have hc : ∀ d, connected d t = connected d s := fun d => by unfold connected; rw [h1]
  refine ⟨⟨fun d => by rw [hc, h5]; exact hs.1.live d, fun t ht => ?_, h3 ▸ hs.1.tidy, fun g d => ?_, ?_, ?_, h5 ▸ hs.1.good⟩, ?_⟩
  · rw [hc]; exact hs.1.keys t (h2 _ ht)
  · rw [h3, h5]; exact hs.1.told g d
  · rw [h5]; exact fun t ht => hs.1.asked t (h2 _ ht)
  · rw [h5]; exact fun t ht => hs.1.dests t (h4 _ ht)
  · intro g d; rw [h5]; exact hs.2 g d

theorem ok_dispatch {c h s} (hh : ∀ t ∈ s.tasks, t.corr = c → Ok (h t s).1) (hs : Ok s) : Ok (dispatch c h s) := by
  unfold dispatch
  cases hf : s.tasks.findIdx? (·.corr = c) with
  | none => exact hs
  | some i =>
    obtain ⟨t, ht, htc⟩ := findIdx_get hf
    have hm : t ∈ s.tasks := List.mem_of_getElem? ht
    simp only [ht]
    have := hh t hm htc
    split
    · split
      · exact ok_sub (s := (h t s).1) rfl (fun u hu => (List.eraseIdx_sublist ..).subset hu) rfl (fun _ h => h) rfl this
      · exact ok_sub (s := (h t s).1) rfl (fun u hu => hu) rfl (fun _ h => h) rfl this
    · exact this

theorem ok_opt {b : Bool} {p : Prop} [Decidable p] {o s} (hq : quiet o = true) (hj : ∀ l, just o l) (hs : Ok s) :
    Ok (if p then (if b then emit o s else s) else s) := by
  split
  · split
    · exact ok_emit hq (hj _) hs
    · exact hs
  · exact hs

theorem ok_onReply {k r t s} (ht : t ∈ s.tasks) (hg : ∃ d, .got d t.corr k r ∈ s.log) (hs : Ok s) :
    Ok (onReply k r t s).1 := by
  obtain ⟨g, h1, h2⟩ := hs.1.asked t ht
  have hj : t.kind = k → work k = true → just (.reply t.ipc t.corr k r) s.log := by
    intro hk hw
    simp only [just, hw, if_true]
    exact ⟨t.key, g, hk ▸ h1, h2, Or.inl hg⟩
  unfold onReply
  split
  · rename_i hk
    have hj := hj hk
    split
    · exact ok_metric (ok_opt rfl (fun _ => trivial) (ok_emit rfl (hj rfl) hs))
    · exact ok_emit rfl (hj rfl) hs
    · exact ok_emit rfl (hj rfl) hs
    · exact hs
  · exact hs

theorem ok_onConnect {r t s} (ht : t ∈ s.tasks) (hg : ∃ d, .got d t.corr .conv r ∈ s.log) (hs : Ok s) :
    Ok (onConnect r t s).1 := by
  obtain ⟨g, h1, h2⟩ := hs.1.asked t ht
  unfold onConnect
  split
  · rename_i hk
    rw [hk] at h1
    have hx : Ok (if r.code = noEntry then
        (if connected t.key s then emit (.unadvertisedOne t.key t.service) s else s) else s) := ok_opt rfl (fun _ => trivial) hs
    refine ok_emit rfl ?_ hx
    have hm : ∀ o ∈ s.log, o ∈ (if r.code = noEntry then
        (if connected t.key s then emit (.unadvertisedOne t.key t.service) s else s) else s).log := by
      intro o ho; split
      · split
        · exact List.mem_cons_of_mem _ ho
        · exact ho
      · exact ho
    obtain ⟨d, hg⟩ := hg
    exact ⟨t.key, g, hm _ h1, d, hm _ hg⟩
  · exact hs

theorem ok_onSend {data tm t s} (ht : t ∈ s.tasks) (hs : Ok s) : Ok (onSend data tm t s).1 := by
  obtain ⟨g, h1, h2⟩ := hs.1.asked t ht
  unfold onSend
  split
  · rename_i hk
    rw [hk] at h1
    exact ok_emit rfl ⟨t.key, g, h1⟩ hs
  · exact hs

theorem ok_onHangup {ok t s} (hs : Ok s) : Ok (onHangup ok t s).1 := by
  unfold onHangup; split
  · exact ok_metric (ok_send rfl (fun _ => trivial) hs)
  · exact hs

theorem ok_addDest {e s} (hr : ∃ k g, .req e.conn e.corr e.ipc k g ∈ s.log ∧ viaDest k = true) (hs : Ok s) : Ok (addDest e s) := by
  unfold addDest; split
  · exact hs
  · refine ⟨⟨hs.1.live, hs.1.keys, hs.1.tidy, hs.1.told, hs.1.asked, ?_, hs.1.good⟩, hs.2⟩
    intro x hx
    rcases List.mem_append.mp hx with hx | hx
    · exact hs.1.dests x hx
    · rw [List.mem_singleton] at hx; subst hx; exact hr

theorem ok_resourceReply {c k r s} (hk : viaDest k = true) (hg : ∃ d, .got d c k r ∈ s.log) (hs : Ok s) :
    Ok (resourceReply c k r s) := by
  have hw : work k = false := by cases k <;> simp [viaDest] at hk <;> rfl
  unfold resourceReply takeDest
  cases hf : s.dest.find? (·.corr == c) with
  | none => exact hs
  | some e =>
    dsimp only
    have hm : e ∈ s.dest := List.mem_of_find?_eq_some hf
    have hc : e.corr = c := by simpa using List.find?_some hf
    obtain ⟨k', g, h1, h2⟩ := hs.1.dests e hm
    refine ok_emit rfl ?_ (ok_sub (s := s) rfl (fun _ h => h) rfl (fun x hx => List.mem_of_mem_erase hx) rfl hs)
    simp only [just, hw, hk, if_true, Bool.false_eq_true, if_false]
    obtain ⟨d, hg⟩ := hg
    exact ⟨e.conn, k', g, hc ▸ h1, h2, Or.inl ⟨d, hg⟩⟩

theorem ok_disconnect {d b s} (hs : Ok s) : Ok (disconnect d b s) := by
  exact ok_congr (s := unadvertise d s) rfl rfl rfl rfl (Or.inl rfl) (ok_unadv hs)

theorem ok_idleLoop {xs : List (Nat × Bool)} {s} (hs : Ok s) : Ok (idleLoop xs s) := by
  induction xs generalizing s with
  | nil => exact hs
  | cons x xs ih =>
    obtain ⟨d, b⟩ := x
    unfold idleLoop; dsimp only
    apply ih
    split
    · exact ok_emit rfl trivial (ok_lost hs)
    · exact ok_lost hs

theorem ok_foldDisc {xs : List Nat} {s} (hs : Ok s) :
    Ok (xs.foldl (fun s d => disconnect d true s) s) := by
  induction xs generalizing s with
  | nil => exact hs
  | cons x xs ih => exact ih (ok_disconnect hs)

/-- A service call, a queue request or the hang up of a conversation that can not be sent, since
the connection fails just then. -/
def brokenSend : Event → Bool
  | .call _ _ _ _ _ false => true
  | .enqueue _ _ _ _ false => true
  | .dequeue _ _ _ _ false => true
  | .hangup _ _ false => true
  | _ => false

theorem ok_apply {e s} (he : brokenSend e = false) (hs : Ok s) : Ok (apply e s) := by
  cases e <;> simp only [apply]
  case connect d m =>
    split
    · exact hs
    · rename_i hd
      have hl : LiveOk (apply (.connect d m) s) := liveOk_apply hs.1.live
      simp only [apply, hd, if_false, Bool.false_eq_true] at hl
      refine ⟨⟨hl, ?_, hs.1.tidy, hs.1.told, ?_, ?_, ⟨trivial, hs.1.good⟩⟩, hs.2⟩
      · intro t ht
        have := hs.1.keys t ht
        simp only [connected, emit_conns, List.any_append] at this ⊢
        rw [this]; rfl
      · intro t ht
        obtain ⟨g, h1, h2⟩ := hs.1.asked t ht
        exact ⟨g, List.mem_cons_of_mem _ h1, fun x hx => List.mem_cons_of_mem _ (h2 x hx)⟩
      · intro x hx
        obtain ⟨k, g', h1, h2⟩ := hs.1.dests x hx
        exact ⟨k, g', List.mem_cons_of_mem _ h1, h2⟩
  case call d c ipc sv g ok =>
    refine on_ind hs fun h => ?_
    have hs' : Ok (emit (.req d c ipc .call g) s) := ok_emit rfl trivial hs
    have h' : connected d (emit (.req d c ipc .call g) s) = true := h
    unfold call; split
    · exact ok_metric (ok_emit rfl ⟨d, g, List.mem_cons_self ..⟩ hs')
    · obtain ⟨x, hx, _⟩ := find_conn h'
      simp only [hx]
      cases ok with
      | false => simp [brokenSend] at he
      | true =>
        split
        · simp only [send, h', if_true]
          exact ok_sendFirst (t := ⟨d, c, ipc, .call, sv⟩) h' (List.mem_cons_self ..) hs'
        · exact ok_sendLast (t := ⟨d, c, ipc, .call, sv⟩) h' (List.mem_cons_self ..) hs'
  case converse d c ipc sv g ok =>
    exact on_ind hs fun h => ok_sendLast (t := ⟨d, c, ipc, .conv, sv⟩) h (List.mem_cons_self ..) (ok_emit rfl trivial hs)
  case say => exact on_ind hs fun h => ok_send rfl (fun _ => trivial) hs
  case hangup d c ok =>
    exact on_ind hs fun h => ok_dispatch (fun t _ _ => ok_onHangup hs) hs
  case enqueue d c ipc g ok =>
    refine on_ind hs fun h => ?_
    cases ok with
    | false => simp [brokenSend] at he
    | true =>
      have h' : connected d (emit (.req d c ipc .enqueue g) s) = true := h
      simp only [queue, send, h', if_true]
      exact ok_sendFirst (t := ⟨d, c, ipc, .enqueue, 0⟩) h (List.mem_cons_self ..) (ok_emit rfl trivial hs)
  case dequeue d c ipc g ok =>
    refine on_ind hs fun h => ?_
    cases ok with
    | false => simp [brokenSend] at he
    | true =>
      have h' : connected d (emit (.req d c ipc .dequeue g) s) = true := h
      simp only [queue, send, h', if_true]
      exact ok_sendFirst (t := ⟨d, c, ipc, .dequeue, 0⟩) h (List.mem_cons_self ..) (ok_emit rfl trivial hs)
  case prepare d c ipc ok =>
    refine on_ind hs fun h => ok_send rfl (fun hc => ⟨?_, ipc, by simp⟩)
      (ok_addDest ⟨.prepare, none, List.mem_cons_self .., rfl⟩ (ok_emit rfl trivial hs))
    rw [ad_log, emit_log, live_still rfl, ← hs.1.live]; exact h
  case commit d c ipc ok =>
    refine on_ind hs fun h => ok_send rfl (fun hc => ⟨?_, ipc, by simp⟩)
      (ok_addDest ⟨.commit, none, List.mem_cons_self .., rfl⟩ (ok_emit rfl trivial hs))
    rw [ad_log, emit_log, live_still rfl, ← hs.1.live]; exact h
  case rollback d c ipc ok =>
    refine on_ind hs fun h => ok_send rfl (fun hc => ⟨?_, ipc, by simp⟩)
      (ok_addDest ⟨.rollback, none, List.mem_cons_self .., rfl⟩ (ok_emit rfl trivial hs))
    rw [ad_log, emit_log, live_still rfl, ← hs.1.live]; exact h
  case discover d c ipc ok =>
    refine on_ind hs fun h => ?_
    unfold discovery; split
    · exact ok_emit rfl ⟨d, .discovery, none, List.mem_cons_self .., rfl, Or.inr ⟨rfl, rfl, rfl⟩⟩ (ok_emit rfl trivial hs)
    · refine ok_send rfl (fun hc => ⟨?_, ipc, by simp⟩)
        (ok_addDest ⟨.discovery, none, List.mem_cons_self .., rfl⟩ (ok_emit rfl trivial hs))
      rw [ad_log, emit_log, live_still rfl, ← hs.1.live]; exact h
  case explore =>
    refine on_ind hs fun h => ?_
    unfold explore; split
    · exact hs
    · exact ok_send rfl (fun _ => trivial) hs
  case rDisconnect => exact on_ind hs fun h => ok_send rfl (fun _ => trivial) (ok_disconnect hs)
  case rCall d c r =>
    exact on_ind hs fun h => ok_dispatch
      (fun t ht hc => ok_onReply ht ⟨d, hc ▸ List.mem_cons_self ..⟩ (ok_emit rfl trivial hs)) (ok_emit rfl trivial hs)
  case rEnqueue d c r =>
    exact on_ind hs fun h => ok_dispatch
      (fun t ht hc => ok_onReply ht ⟨d, hc ▸ List.mem_cons_self ..⟩ (ok_emit rfl trivial hs)) (ok_emit rfl trivial hs)
  case rDequeue d c r =>
    exact on_ind hs fun h => ok_dispatch
      (fun t ht hc => ok_onReply ht ⟨d, hc ▸ List.mem_cons_self ..⟩ (ok_emit rfl trivial hs)) (ok_emit rfl trivial hs)
  case rConnect d c r =>
    exact on_ind hs fun h => ok_dispatch
      (fun t ht hc => ok_onConnect ht ⟨d, hc ▸ List.mem_cons_self ..⟩ (ok_emit rfl trivial hs)) (ok_emit rfl trivial hs)
  case rSay => exact on_ind hs fun h => ok_dispatch (fun t ht _ => ok_onSend ht hs) hs
  case rPrepare d c r => exact on_ind hs fun h => ok_resourceReply rfl ⟨d, List.mem_cons_self ..⟩ (ok_emit rfl trivial hs)
  case rCommit d c r => exact on_ind hs fun h => ok_resourceReply rfl ⟨d, List.mem_cons_self ..⟩ (ok_emit rfl trivial hs)
  case rRollback d c r => exact on_ind hs fun h => ok_resourceReply rfl ⟨d, List.mem_cons_self ..⟩ (ok_emit rfl trivial hs)
  case rDiscover d c sv q r =>
    refine on_ind hs fun h => ?_
    have h0 : Ok (emit (.found d sv q) (emit (.got d c .discovery r) s)) := ok_emit rfl trivial (ok_emit rfl trivial hs)
    have hl : live d (emit (.found d sv q) (emit (.got d c .discovery r) s)).log = true := by
      rw [← h0.1.live]; exact h
    unfold discoveryReply; dsimp only
    have hf1 : just (.advertised d (sv.map fun x => (x.1, x.2 + 1))) (emit (.found d sv q) (emit (.got d c .discovery r) s)).log :=
      ⟨hl, sv, q, List.mem_cons_self .., rfl⟩
    have hf2 : just (.advertisedQ d q) (emit (.found d sv q) (emit (.got d c .discovery r) s)).log :=
      ⟨hl, sv, List.mem_cons_self ..⟩
    split
    · split
      · exact ok_resourceReply rfl ⟨d, by simp⟩ h0
      · exact ok_resourceReply rfl ⟨d, by simp⟩ (ok_emit rfl hf1 h0)
    · split
      · exact ok_resourceReply rfl ⟨d, by simp⟩ (ok_emit rfl hf2 h0)
      · exact ok_resourceReply rfl ⟨d, by simp⟩ (ok_emit rfl ⟨by simpa [emit, live] using hl, sv, by simp⟩ (ok_emit rfl hf1 h0))
  case broken => exact on_ind hs fun h => ok_emit rfl trivial (ok_lost hs)
  case disassociate g =>
    refine ⟨⟨liveOk_emit rfl hs.1.live, hs.1.keys, tidy_remove hs.1.tidy, ?_, ?_, ?_, ⟨trivial, hs.1.good⟩⟩, ?_⟩
    · intro g' d
      show has g' d (removeTrans g s.trans) = told g' d (.disassociate g :: s.log)
      rw [has_remove, hs.1.told]; rfl
    · intro t ht
      obtain ⟨g, h1, h2⟩ := hs.1.asked t ht
      exact ⟨g, List.mem_cons_of_mem _ h1, fun x hx => List.mem_cons_of_mem _ (h2 x hx)⟩
    · intro x hx
      obtain ⟨k, g', h1, h2⟩ := hs.1.dests x hx
      exact ⟨k, g', List.mem_cons_of_mem _ h1, h2⟩
    · intro g' d h
      simp only [emit_log, used, told, Bool.and_eq_true] at h ⊢
      exact ⟨h.1, hs.2 g' d h.2⟩
  case remove => exact on_ind hs fun h => ok_disconnect hs
  case idle => exact ok_force (ok_idleLoop hs)
  case shutdown =>
    exact ok_force (ok_foldDisc (ok_congr (s := s) (t := { s with running := false }) rfl rfl rfl rfl (Or.inl rfl) hs))

theorem ok_initial : Ok {} :=
  ⟨⟨fun _ => rfl, by simp, ⟨by simp, by simp⟩, fun _ _ => rfl, by simp, by simp, trivial⟩, fun _ _ h => by simp [used] at h⟩

theorem ok_run (es : List Event) (hb : ∀ e ∈ es, brokenSend e = false) : Ok (run es) := by
  refine inv_run_of (P := Ok) (A := fun e => brokenSend e = false) ok_initial (fun s e he h => ?_) es hb
  unfold step; split
  · exact h
  · exact ok_apply he h

end Casual.Gateway.Out
