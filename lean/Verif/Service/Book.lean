import Verif.Service.COffer
/-! The bookkeeping: deadlines, the timer, and the pending lookups with their answers. -/
namespace Casual.Service

theorem inOrder_add (e : Entry) {l : List Entry} (h : InOrder l) : InOrder (addDeadline e l).1 ∧ (∀ x, x ∈ (addDeadline e l).1 ↔ x = e ∨ x ∈ l) ∧
    ((addDeadline e l).2 = none → ∃ d ∈ l, d.when_ ≤ e.when_) ∧ (∀ t, (addDeadline e l).2 = some t → t = e.when_ ∧ ∀ d ∈ l, t < d.when_ ) := by
  induction l with
  | nil => simp [addDeadline, InOrder]
  | cons d l ih =>
    have hd := List.pairwise_cons.mp h
    obtain ⟨i1, i2, i3, i4⟩ := ih hd.2
    unfold addDeadline
    split
    · rename_i hlt
      refine ⟨List.pairwise_cons.mpr ⟨?_, h⟩, by simp, by simp, ?_⟩
      · intro x hx
        rcases List.mem_cons.mp hx with rfl | hx
        · exact Int.le_of_lt hlt
        · exact Int.le_trans (Int.le_of_lt hlt) (hd.1 x hx)
      · intro t ht
        simp only [Option.some.injEq] at ht
        subst ht
        refine ⟨rfl, fun x hx => ?_⟩
        rcases List.mem_cons.mp hx with rfl | hx
        · exact hlt
        · exact Int.lt_of_lt_of_le hlt (hd.1 x hx)
    · rename_i hlt
      refine ⟨List.pairwise_cons.mpr ⟨?_, i1⟩, ?_, ?_, by simp⟩
      · intro x hx
        rcases (i2 x).mp hx with rfl | hx
        · exact Int.not_lt.mp hlt
        · exact hd.1 x hx
      · intro x
        rw [List.mem_cons, i2, List.mem_cons]
        constructor
        · rintro (h | h | h)
          · exact .inr (.inl h)
          · exact .inl h
          · exact .inr (.inr h)
        · rintro (h | h | h)
          · exact .inr (.inl h)
          · exact .inl h
          · exact .inr (.inr h)
      · exact fun _ => ⟨d, List.mem_cons_self, Int.not_lt.mp hlt⟩

theorem claim_when (corr svc i : Nat) (l : List Entry) : (claimEntry corr svc i l).map (·.when_) = l.map (·.when_) := by
  induction l with
  | nil => rfl
  | cons d l ih =>
    unfold claimEntry
    split
    · rfl
    · rw [List.map_cons, ih, List.map_cons]

theorem inOrder_iff (l : List Entry) : InOrder l ↔ (l.map (·.when_)).Pairwise (· ≤ ·) := by
  unfold InOrder; rw [List.pairwise_map]

theorem covered_iff (s : State) : s.covered ↔ ∀ w ∈ s.deadlines.map (·.when_), ∃ t, s.timer = some t ∧ t ≤ w := by
  unfold State.covered
  constructor
  · intro h w hw
    obtain ⟨d, hd, rfl⟩ := List.mem_map.mp hw
    exact h d hd
  · exact fun h d hd => h _ (List.mem_map_of_mem hd)

theorem inOrder_remove (corr : Nat) {l : List Entry} (h : InOrder l) : InOrder (removeDeadline corr l).1 ∧ (∀ x ∈ (removeDeadline corr l).1, x ∈ l) ∧
    (∀ t, (removeDeadline corr l).2 = .at_ t → ∀ x ∈ (removeDeadline corr l).1, t ≤ x.when_) ∧ ((removeDeadline corr l).2 = .undefined → (removeDeadline corr l).1 = []) := by
  cases l with
  | nil => simp [removeDeadline, InOrder]
  | cons d l =>
    have hd := List.pairwise_cons.mp h
    by_cases hc : d.corr = corr
    · cases l with
      | nil => simp [removeDeadline, hc, InOrder]
      | cons d' l =>
        have hd' := List.pairwise_cons.mp hd.2
        have hr : removeDeadline corr (d :: d' :: l) = (d' :: l, .at_ d'.when_) := by simp [removeDeadline, hc]
        rw [hr]
        refine ⟨hd.2, fun x hx => List.mem_cons_of_mem _ hx, ?_, by simp⟩
        intro t ht x hx
        simp only [Next.at_.injEq] at ht
        subst ht
        rcases List.mem_cons.mp hx with rfl | hx
        · exact Int.le_refl _
        · exact hd'.1 x hx
    · have hr : removeDeadline corr (d :: l) = (d :: l.eraseP (fun d => d.corr == corr), .none) := by simp [removeDeadline, hc]
      rw [hr]
      refine ⟨List.pairwise_cons.mpr ⟨fun x hx => hd.1 x (List.eraseP_sublist.subset hx), List.Pairwise.sublist List.eraseP_sublist hd.2⟩, ?_, by simp, by simp⟩
      intro x hx
      rcases List.mem_cons.mp hx with rfl | hx
      · exact List.mem_cons_self
      · exact List.mem_cons_of_mem _ (List.eraseP_sublist.subset hx)

theorem takeWhile_inOrder (now : Time) {l : List Entry} (h : InOrder l) :
    l.takeWhile (fun d => decide (d.when_ < now)) = l.filter (fun d => decide (d.when_ < now)) ∧
    l.dropWhile (fun d => decide (d.when_ < now)) = l.filter (fun d => decide (now ≤ d.when_)) := by
  induction l with
  | nil => simp
  | cons d l ih =>
    have hd := List.pairwise_cons.mp h
    by_cases hlt : d.when_ < now
    · have hn : ¬ now ≤ d.when_ := Int.not_le.mpr hlt
      rw [List.takeWhile_cons_of_pos (by simp [hlt]), List.dropWhile_cons_of_pos (by simp [hlt]), List.filter_cons_of_pos (by simp [hlt]), List.filter_cons_of_neg (by simp [hn]), (ih hd.2).1, (ih hd.2).2]
      exact ⟨rfl, rfl⟩
    · have hn : now ≤ d.when_ := Int.not_lt.mp hlt
      have h1 : l.filter (fun d => decide (d.when_ < now)) = [] := by
        rw [List.filter_eq_nil_iff]
        intro x hx
        simp only [decide_eq_true_eq]
        exact Int.not_lt.mpr (Int.le_trans hn (hd.1 x hx))
      have h2 : l.filter (fun d => decide (now ≤ d.when_)) = l := by
        rw [List.filter_eq_self]
        intro x hx
        simp only [decide_eq_true_eq]
        exact Int.le_trans hn (hd.1 x hx)
      rw [List.takeWhile_cons_of_neg (by simp [hlt]), List.dropWhile_cons_of_neg (by simp [hlt]), List.filter_cons_of_neg (by simp [hlt]), List.filter_cons_of_pos (by simp [hn]), h1, h2]
      exact ⟨rfl, rfl⟩

/-! ## The invariant -/

/-- `rs` are the lookups that are about to be tried again. -/
structure BInv (ok tk : Prop) (s : State) (rs : List Req) : Prop where
  order : InOrder s.deadlines
  timer : tk → s.covered
  sems : ok → ∀ r ∈ rs ++ s.lookups.map (·.req), r.patient
  asks : ∀ r ∈ rs ++ s.lookups.map (·.req), ∃ e, .recv (.lookup r e) ∈ s.tr
  good : AllGood GoodAnswer s.tr
  count : ∀ c, answers c s.tr + (rs ++ s.lookups.map (·.req)).countP (fun r => r.corr == c) ≤ asked c s.tr ∧
    asked c s.tr ≤ answers c s.tr + (rs ++ s.lookups.map (·.req)).countP (fun r => r.corr == c) + discards c s.tr

/-- Not a lookup, nor an answer. -/
def BQuiet (e : Ev) : Prop := (∀ a, GoodAnswer a e) ∧ (∀ c, isAnswer c e = false) ∧ (∀ c, isAsked c e = false) ∧ ∀ c, isDiscard c e = false

theorem count_quiet {es : List Ev} (h : ∀ e ∈ es, BQuiet e) (c : Nat) (tr : List Ev) :
    answers c (tr ++ es) = answers c tr ∧ asked c (tr ++ es) = asked c tr ∧ discards c (tr ++ es) = discards c tr := by
  unfold answers asked discards
  simp only [List.countP_append]
  refine ⟨?_, ?_, ?_⟩
  · rw [show es.countP (isAnswer c) = 0 from List.countP_eq_zero.mpr fun e he => by simp [(h e he).2.1 c]]; rfl
  · rw [show es.countP (isAsked c) = 0 from List.countP_eq_zero.mpr fun e he => by simp [(h e he).2.2.1 c]]; rfl
  · rw [show es.countP (isDiscard c) = 0 from List.countP_eq_zero.mpr fun e he => by simp [(h e he).2.2.2 c]]; rfl

section
variable {ok tk : Prop}

/-- Nothing of it changes, up to which lookups wait and which are about to be tried. -/
theorem BInv.keeps {s s' : State} {rs rs' : List Req} (h : BInv ok tk s rs) {es : List Ev} (ht : s'.tr = s.tr ++ es) (hq : ∀ e ∈ es, BQuiet e)
    (hd : s'.deadlines = s.deadlines) (hm : s'.timer = s.timer) (hl : (rs' ++ s'.lookups.map (·.req)).Perm (rs ++ s.lookups.map (·.req))) : BInv ok tk s' rs' := by
  obtain ⟨h1, h2, h3, h4, h5, h6⟩ := h
  refine ⟨by rw [hd]; exact h1, fun hk => ?_, fun hk r hr => h3 hk r (hl.mem_iff.mp hr), fun r hr => ?_, ?_, fun c => ?_⟩
  · unfold State.covered; rw [hd, hm]; exact h2 hk
  · obtain ⟨e, he⟩ := h4 r (hl.mem_iff.mp hr)
    exact ⟨e, by rw [ht]; exact List.mem_append_left _ he⟩
  · rw [ht]; exact h5.append fun a e he => (hq e he).1 a
  · obtain ⟨q1, q2, q3⟩ := count_quiet hq c s.tr
    rw [ht, q1, q2, q3, hl.countP_eq]
    exact h6 c

/-- One of the lookups is answered. -/
theorem BInv.answered {s s' : State} {r : Req} {rs rs' : List Req} (h : BInv ok tk s rs) {es : List Ev} {a : Ev}
    (hg : ∀ b e, .recv (.lookup r e) ∈ b → GoodAnswer b a) (ha : ∀ c, isAnswer c a = (r.corr == c)) (hk : ∀ c, isAsked c a = false) (hi : ∀ c, isDiscard c a = false)
    (ht : s'.tr = s.tr ++ es ++ [a]) (hq : ∀ e ∈ es, BQuiet e)
    (ho : InOrder s'.deadlines) (hm : tk → s'.covered) (hl : (r :: (rs' ++ s'.lookups.map (·.req))).Perm (rs ++ s.lookups.map (·.req))) : BInv ok tk s' rs' := by
  obtain ⟨h1, h2, h3, h4, h5, h6⟩ := h
  refine ⟨ho, hm, fun hk r' hr => h3 hk r' (hl.mem_iff.mp (List.mem_cons_of_mem _ hr)), fun r' hr => ?_, ?_, fun c => ?_⟩
  · obtain ⟨e, he⟩ := h4 r' (hl.mem_iff.mp (List.mem_cons_of_mem _ hr))
    exact ⟨e, by rw [ht, List.append_assoc]; exact List.mem_append_left _ he⟩
  · rw [ht]
    refine AllGood.snoc (h5.append fun a e he => (hq e he).1 a) ?_
    obtain ⟨e, he⟩ := h4 r (hl.mem_iff.mp List.mem_cons_self)
    exact hg _ e (List.mem_append_left _ he)
  · obtain ⟨q1, q2, q3⟩ := count_quiet hq c s.tr
    have e1 : answers c s'.tr = answers c s.tr + if r.corr == c then 1 else 0 := by
      rw [ht]; unfold answers at *; rw [List.countP_append, q1, List.countP_singleton, ha]
    have e2 : asked c s'.tr = asked c s.tr := by
      rw [ht]; unfold asked at *; rw [List.countP_append, q2, List.countP_singleton, hk]; rfl
    have e3 : discards c s'.tr = discards c s.tr := by
      rw [ht]; unfold discards at *; rw [List.countP_append, q3, List.countP_singleton, hi]; rfl
    have e4 := hl.countP_eq (fun r => r.corr == c)
    rw [List.countP_cons] at e4
    have := h6 c
    rw [e1, e2, e3]
    omega

theorem bquiet_discover (a b : Nat) : BQuiet (.discover a b) := ⟨fun _ => trivial, fun _ => rfl, fun _ => rfl, fun _ => rfl⟩
theorem bquiet_shutdown (a b : Nat) (c : List Proc) : BQuiet (.shutdown a b c) := ⟨fun _ => trivial, fun _ => rfl, fun _ => rfl, fun _ => rfl⟩
theorem bquiet_error (a : Nat) (b : Option Nat) (c : Code) : BQuiet (.error a b c) := ⟨fun _ => trivial, fun _ => rfl, fun _ => rfl, fun _ => rfl⟩
theorem bquiet_assassinate (a : Nat) : BQuiet (.assassinate a) := ⟨fun _ => trivial, fun _ => rfl, fun _ => rfl, fun _ => rfl⟩
theorem bquiet_discarded (a b : Nat) (c : Bool) : BQuiet (.discarded a b c) := ⟨fun _ => trivial, fun _ => rfl, fun _ => rfl, fun _ => rfl⟩
theorem bquiet_rollback (a : Nat) : BQuiet (.rollback a) := ⟨fun _ => trivial, fun _ => rfl, fun _ => rfl, fun _ => rfl⟩

theorem BInv.absent {s s' : State} {r : Req} {rs rs' : List Req} (h : BInv ok tk s rs) {es : List Ev}
    (ht : s'.tr = s.tr ++ es ++ [.absent r.proc.ipc r.corr r.name]) (hq : ∀ e ∈ es, BQuiet e)
    (hd : s'.deadlines = s.deadlines) (hm : s'.timer = s.timer) (hl : (r :: (rs' ++ s'.lookups.map (·.req))).Perm (rs ++ s.lookups.map (·.req))) : BInv ok tk s' rs' :=
  h.answered (a := .absent r.proc.ipc r.corr r.name) (fun _ e he => ⟨r, e, he, rfl, rfl, rfl⟩) (fun _ => rfl) (fun _ => rfl) (fun _ => rfl) ht hq (by rw [hd]; exact h.order)
    (fun hk => by unfold State.covered; rw [hd, hm]; exact h.timer hk) hl

theorem seqDl_inv (s : State) (v : Svc) (i : Nat) (r : Req) (e : Env) (h : InOrder s.deadlines) :
    InOrder (seqDl s v i r e).1 ∧ (s.covered → ∀ d ∈ (seqDl s v i r e).1, ∃ t, (seqDl s v i r e).2.1 = some t ∧ t ≤ d.when_) := by
  unfold seqDl
  split
  · refine ⟨by rw [inOrder_iff, claim_when, ← inOrder_iff]; exact h, fun hc d hd => ?_⟩
    rw [covered_iff] at hc
    rw [← claim_when r.corr v.name i] at hc
    exact hc _ (List.mem_map_of_mem hd)
  · split
    · rename_i t _
      simp only
      obtain ⟨a1, a2, a3, a4⟩ := inOrder_add { when_ := t, corr := r.corr, target := some i, service := some v.name } h
      generalize addDeadline _ _ = a at a1 a2 a3 a4
      refine ⟨a1, fun hc d hd => ?_⟩
      cases hn : a.2 with
      | none =>
        obtain ⟨d', hd', hle⟩ := a3 hn
        rcases (a2 d).mp hd with rfl | hd
        · obtain ⟨t', ht', hle'⟩ := hc d' hd'
          exact ⟨t', ht', Int.le_trans hle' hle⟩
        · exact hc d hd
      | some n =>
        obtain ⟨rfl, hall⟩ := a4 n hn
        rcases (a2 d).mp hd with rfl | hd
        · exact ⟨_, rfl, Int.le_refl _⟩
        · exact ⟨_, rfl, Int.le_of_lt (hall d hd)⟩
    · exact ⟨h, fun hc => hc⟩

theorem pendDl_inv (s : State) (v : Svc) (r : Req) (e : Env) (h : InOrder s.deadlines) : InOrder (pendDl s v r e) := by
  unfold pendDl
  split
  · exact h
  · split
    · exact (inOrder_add _ h).1
    · exact h

theorem BInv.outcome {s s' : State} {r : Req} {rs : List Req} {e : Env} (hk : tk → ok) (h : BInv ok tk s (r :: rs)) (o : Outcome s r e s') : BInv ok tk s' rs := by
  cases o with
  | absent => exact h.absent (es := []) (by simp [State.noEntry, State.emit]) (by simp) rfl rfl (List.Perm.refl _)
  | discover =>
    rw [discover_eq]
    split
    · refine h.keeps (es := [.discover r.name r.corr]) rfl (by simp [bquiet_discover]) rfl rfl ?_
      show (rs ++ (s.lookups ++ [({ req := r, when_ := e.now } : Lookup)]).map (·.req)).Perm (r :: rs ++ s.lookups.map (·.req))
      rw [List.map_append, ← List.append_assoc]
      exact List.perm_append_singleton r _
    · exact h.absent (es := [.discover r.name r.corr]) (by simp [State.emit]) (by simp [bquiet_discover]) rfl rfl (List.Perm.refl _)
  | forward => exact h.answered (a := .idle r .forward s.forward none) (es := []) (fun _ e he => ⟨e, he⟩) (fun _ => rfl) (fun _ => rfl) (fun _ => rfl) (by simp [State.emit]) (by simp) h.order h.timer (List.Perm.refl _)
  | pending v h1 h2 h3 h4 =>
    have hp : (rs ++ (s.lookups ++ [({ req := r, when_ := e.now } : Lookup)]).map (·.req)).Perm (r :: rs ++ s.lookups.map (·.req)) := by
      rw [List.map_append, ← List.append_assoc]
      exact List.perm_append_singleton r _
    obtain ⟨g1, g2, g3, g4, g5, g6⟩ := h
    refine ⟨pendDl_inv s v r e g1, fun hk' => ?_, fun hk r hr => g3 hk r (hp.mem_iff.mp hr), fun r hr => g4 r (hp.mem_iff.mp hr), g5, fun c => ?_⟩
    · have hr : r.patient := g3 (hk hk') r (by simp)
      have hw : r.sem = .wait := hr.resolve_left h4
      have : pendDl s v r e = s.deadlines := by unfold pendDl; rw [if_pos hw]
      unfold State.covered
      simp only [this]
      exact g2 hk'
    · have := hp.countP_eq (fun r => r.corr == c)
      have h6 := g6 c
      rw [← this] at h6
      exact h6
  | seq v i x h1 h2 h3 h4 =>
    have hs := seqDl_inv s v i r e h.order
    exact h.answered (a := .idle r .sequential x.proc (seqDl s v i r e).2.2) (es := []) (fun _ e he => ⟨e, he⟩) (fun _ => rfl) (fun _ => rfl) (fun _ => rfl) (by simp) (by simp) hs.1 (fun hk => hs.2 (h.timer hk)) (List.Perm.refl _)
  | con v i x h1 h2 h3 h4 h5 =>
    exact h.answered (a := .idle r .concurrent x.proc ((calcDeadline v.timeout e.now r.deadline).map fun t => t - e.now)) (es := []) (fun _ e he => ⟨e, he⟩) (fun _ => rfl) (fun _ => rfl) (fun _ => rfl) (by simp) (by simp) h.order h.timer (List.Perm.refl _)

theorem BInv.lookup {s : State} {r : Req} {rs : List Req} (hk : tk → ok) (hi : Inv s) (h : BInv ok tk s (r :: rs)) (e : Env) : BInv ok tk (s.lookup r e) rs :=
  h.outcome hk (lookup_outcome hi r e)

theorem BInv.again {s : State} {rs : List Req} (hk : tk → ok) (hi : Inv s) (ls : List Lookup) (h : BInv ok tk s (ls.map (·.req) ++ rs)) (e : Env) : BInv ok tk (s.again ls e) rs := by
  unfold State.again
  induction ls generalizing s with
  | nil => exact h
  | cons l ls ih => exact ih (hi.lookup l.req e) (h.lookup hk hi e)

theorem eraseP_perm {α : Type} {l : List α} {p : α → Bool} {a : α} (h : l.find? p = some a) : (a :: l.eraseP p).Perm l := by
  induction l with
  | nil => cases h
  | cons b l ih =>
    rw [List.find?_cons] at h
    cases hb : p b with
    | true => rw [hb] at h; cases h; rw [List.eraseP_cons_of_pos hb]
    | false =>
      rw [hb] at h
      rw [List.eraseP_cons_of_neg (by simp [hb])]
      exact (List.Perm.swap b a _).trans (List.Perm.cons b (ih h))

theorem filter_perm {α : Type} (l : List α) (p q : α → Bool) (hpq : ∀ x, q x = !p x) : (l.filter p ++ l.filter q).Perm l := by
  induction l with
  | nil => exact List.Perm.refl _
  | cons a l ih =>
    cases hp : p a with
    | true =>
      rw [List.filter_cons_of_pos hp, List.filter_cons_of_neg (by simp [hpq, hp])]
      exact List.Perm.cons a ih
    | false =>
      rw [List.filter_cons_of_neg (by simp [hp]), List.filter_cons_of_pos (by simp [hpq, hp])]
      exact List.perm_middle.trans (List.Perm.cons a ih)

theorem BInv.takePending {s : State} (hk : tk → ok) (hi : Inv s) (h : BInv ok tk s []) (i : Nat) (e : Env) : BInv ok tk (s.takePending i e) [] := by
  rw [takePending_eq]
  split
  · rename_i l hl
    refine BInv.lookup hk ?_ ?_ e
    · exact hi.same ⟨rfl, rfl, rfl⟩
    exact h.keeps (es := []) (by simp) (by simp) rfl rfl ((eraseP_perm hl).map _)
  · exact h

/-- A message that has come, and is no lookup. -/
theorem BInv.recv {s : State} (h : BInv ok tk s []) (m : In) (hl : ∀ r e, m ≠ .lookup r e) : BInv ok tk (s.emit (.recv m)) [] := by
  obtain ⟨h1, h2, h3, h4, h5, h6⟩ := h
  refine ⟨h1, h2, h3, ?_, h5.snoc trivial, ?_⟩
  · intro r hr
    obtain ⟨e, he⟩ := h4 r hr
    exact ⟨e, List.mem_append_left _ he⟩
  · intro c
    have e1 : answers c (s.tr ++ [.recv m]) = answers c s.tr := by unfold answers; rw [List.countP_append, List.countP_singleton]; rfl
    have e2 : asked c (s.tr ++ [.recv m]) = asked c s.tr := by
      unfold asked; rw [List.countP_append, List.countP_singleton]
      have : isAsked c (.recv m) = false := by
        cases m <;> first | rfl | exact absurd rfl (hl _ _)
      rw [this]; rfl
    have e3 : discards c s.tr ≤ discards c (s.tr ++ [.recv m]) := by unfold discards; rw [List.countP_append]; omega
    have := h6 c
    refine ⟨?_, ?_⟩
    · show answers c (s.tr ++ [.recv m]) + ([] ++ s.lookups.map Lookup.req).countP (fun r : Req => r.corr == c) ≤ asked c (s.tr ++ [.recv m])
      rw [e1, e2]; exact this.1
    · show asked c (s.tr ++ [.recv m]) ≤ answers c (s.tr ++ [.recv m]) + ([] ++ s.lookups.map Lookup.req).countP (fun r : Req => r.corr == c) + discards c (s.tr ++ [.recv m])
      rw [e1, e2]; exact Nat.le_trans this.2 (Nat.add_le_add_left e3 _)

theorem ackPrep_lookups (s : State) (p : Proc) (corr : Nat) (t : Option Nat) (e : Env) : (s.ackPrep p corr t e).lookups = s.lookups ∧
    (s.ackPrep p corr t e).deadlines = (removeDeadline corr s.deadlines).1 ∧
    (s.ackPrep p corr t e).timer = (match (removeDeadline corr s.deadlines).2 with | .none => s.timer | .at_ t => some t | .undefined => some e.junk) := by
  have : ∀ u : State, (u.notifyTM p t).lookups = u.lookups ∧ (u.notifyTM p t).deadlines = u.deadlines ∧ (u.notifyTM p t).timer = u.timer := by
    intro u
    unfold State.notifyTM
    split
    · exact ⟨rfl, rfl, rfl⟩
    · split <;> exact ⟨rfl, rfl, rfl⟩
  unfold State.ackPrep
  exact this _

theorem BInv.ask {s : State} (h : BInv ok tk s []) {r : Req} (e : Env) (hm : ok → r.patient) : BInv ok tk (s.emit (.recv (.lookup r e))) [r] := by
  obtain ⟨h1, h2, h3, h4, h5, h6⟩ := h
  refine ⟨h1, h2, ?_, ?_, h5.snoc trivial, ?_⟩
  · intro hk r' hr
    rcases List.mem_cons.mp hr with rfl | hr
    · exact hm hk
    · exact h3 hk r' hr
  · intro r' hr
    rcases List.mem_cons.mp hr with rfl | hr
    · exact ⟨e, List.mem_append_right _ (List.mem_singleton.mpr rfl)⟩
    · obtain ⟨e, he⟩ := h4 r' hr
      exact ⟨e, List.mem_append_left _ he⟩
  · intro c
    have e1 : answers c (s.tr ++ [.recv (.lookup r e)]) = answers c s.tr := by unfold answers; rw [List.countP_append, List.countP_singleton]; rfl
    have e2 : asked c (s.tr ++ [.recv (.lookup r e)]) = asked c s.tr + if r.corr == c then 1 else 0 := by unfold asked; rw [List.countP_append, List.countP_singleton]; rfl
    have e3 : discards c (s.tr ++ [.recv (.lookup r e)]) = discards c s.tr := by unfold discards; rw [List.countP_append, List.countP_singleton]; rfl
    show answers c (s.tr ++ [.recv (.lookup r e)]) + (r :: (s.lookups.map (·.req))).countP _ ≤ asked c (s.tr ++ [.recv (.lookup r e)]) ∧ asked c (s.tr ++ [.recv (.lookup r e)]) ≤ answers c (s.tr ++ [.recv (.lookup r e)]) + (r :: (s.lookups.map (·.req))).countP _ + discards c (s.tr ++ [.recv (.lookup r e)])
    rw [e1, e2, e3, List.countP_cons]
    have := h6 c
    simp only [List.nil_append] at this
    omega

theorem BInv.step {s : State} (hi : Inv s) (h : BInv ok ok s []) (m : In) (hm : ok → m.patient) : BInv ok ok (s.step m) [] := by
  have hi' : Inv (s.emit (.recv m)) := hi.same ⟨rfl, rfl, rfl⟩
  cases m with
  | lookup r e =>
    show BInv ok ok ((s.emit _).lookup r e) []
    exact BInv.lookup id hi' (h.ask e hm) e
  | advertise p alias add remove e =>
    show BInv ok ok ((s.emit _).advertise p alias add remove e) []
    have hb := h.recv (.advertise p alias add remove e) (by simp)
    rw [advertise_eq]
    split
    · rw [remove_eq hi']
      exact hb.keeps (es := []) (by simp [State.without]) (by simp) rfl rfl (List.Perm.refl _)
    · have hfr := seqFor_eq (s.emit (.recv (.advertise p alias add remove e))) p alias
      have hsi := seqFor_isSome (s.emit (.recv (.advertise p alias add remove e))) p alias
      have hsf := hi'.seqFor p alias
      generalize (s.emit (.recv (.advertise p alias add remove e))).seqFor p alias = r at hfr hsi hsf ⊢
      obtain ⟨i, t⟩ := r
      dsimp only at hfr hsi hsf ⊢
      split
      · exact hb.keeps (es := []) (by rw [hfr]; simp) (by simp) (by rw [hfr]) (by rw [hfr]) (by rw [hfr])
      · refine BInv.takePending id ((hsf.addSeqServices hsi _).removeSeqServices _ _) ?_ _ _
        have hfr2 := addSeqServices_frame i t (add.filter fun n => (s.emit (.recv (.advertise p alias add remove e))).allowed alias n)
        generalize (add.filter fun n => (s.emit (.recv (.advertise p alias add remove e))).allowed alias n).foldl (State.addSeqService i) t = u at hfr2
        refine hb.keeps (es := []) ?_ (by simp) ?_ ?_ ?_
        · show u.tr = _
          rw [hfr2, hfr]; simp
        · show u.deadlines = _
          rw [hfr2, hfr]
        · show u.timer = _
          rw [hfr2, hfr]
        · show ([] ++ u.lookups.map _).Perm _
          rw [hfr2, hfr]
  | cadvertise p alias order add remove e =>
    show BInv ok ok ((s.emit _).cadvertise p alias order add remove e) []
    have hb := h.recv (.cadvertise p alias order add remove e) (by simp)
    rw [cadvertise_eq, takeReady_eq]
    have hcf := conFor_eq (s.emit (.recv (.cadvertise p alias order add remove e))) p alias order
    have hinv := hi'.conFor p alias order
    have hsome := conFor_isSome (s.emit (.recv (.cadvertise p alias order add remove e))) p alias order
    generalize (s.emit (.recv (.cadvertise p alias order add remove e))).conFor p alias order = r at hcf hinv hsome ⊢
    obtain ⟨i, t⟩ := r
    dsimp only at hcf hinv hsome ⊢
    have hfr := addConServices_frame i order t (add.filter fun n => (s.emit (.recv (.cadvertise p alias order add remove e))).allowed alias n.1)
    have hinv2 := (hinv.addConServices hsome order (add.filter fun n => (s.emit (.recv (.cadvertise p alias order add remove e))).allowed alias n.1)).removeConServices i remove
    generalize (add.filter fun n => (s.emit (.recv (.cadvertise p alias order add remove e))).allowed alias n.1).foldl (State.addConService i order) t = u at hfr hinv2 ⊢
    have hb2 : BInv ok ok (u.removeConServices i remove) [] := by
      refine hb.keeps (es := []) ?_ (by simp) ?_ ?_ ?_
      · show u.tr = _
        rw [hfr, hcf]; simp
      · show u.deadlines = _
        rw [hfr, hcf]
      · show u.timer = _
        rw [hfr, hcf]
      · show ([] ++ u.lookups.map _).Perm _
        rw [hfr, hcf]
    generalize u.removeConServices i remove = w at hb2 hinv2 ⊢
    refine BInv.again id ?_ _ ?_ e
    · exact hinv2.same ⟨rfl, rfl, rfl⟩
    refine hb2.keeps (es := []) (by simp) (by simp) rfl rfl ?_
    rw [List.append_nil, ← List.map_append]
    exact (filter_perm w.lookups w.ready (fun l => !w.ready l) (fun _ => rfl)).map _
  | creset p =>
    show BInv ok ok ((s.emit _).remove _).1 []
    rw [remove_eq hi']
    exact (h.recv (.creset p) (by simp)).keeps (es := []) (by simp [State.without]) (by simp) rfl rfl (List.Perm.refl _)
  | cinstance p alias order =>
    show BInv ok ok ((s.emit _).cinstance p alias order) []
    have hb := h.recv (.cinstance p alias order) (by simp)
    unfold State.cinstance
    split
    · exact hb
    · exact hb.keeps (es := []) (by simp) (by simp) rfl rfl (List.Perm.refl _)
  | discard p corr reply =>
    show BInv ok ok ((s.emit _).discard p corr reply) []
    have hq : ∀ b, ∀ e ∈ (if reply then [Ev.discarded p.ipc corr b] else []), BQuiet e := by
      intro b; cases reply <;> simp [bquiet_discarded]
    rw [discard_eq]
    split
    · rename_i hany
      have hany : s.lookups.any (fun l => l.req.corr == corr) = true := hany
      obtain ⟨l, hl⟩ : ∃ l, s.lookups.find? (fun l => l.req.corr == corr) = some l := by
        cases hf : s.lookups.find? (fun l => l.req.corr == corr) with
        | some l => exact ⟨l, rfl⟩
        | none =>
          rw [List.find?_eq_none] at hf
          obtain ⟨l, hl, hc⟩ := List.any_eq_true.mp hany
          exact absurd hc (hf l hl)
      have hlc : l.req.corr = corr := by simpa using List.find?_some hl
      have hp : (l.req :: (s.lookups.eraseP fun l => l.req.corr == corr).map (·.req)).Perm (s.lookups.map (·.req)) := (eraseP_perm hl).map _
      -- the lookup is forgotten
      have h0 : BInv ok ok { s.emit (.recv (.discard p corr reply)) with lookups := s.lookups.eraseP fun l => l.req.corr == corr } [] := by
        obtain ⟨h1, h2, h3, h4, h5, h6⟩ := h
        refine ⟨h1, h2, fun hk r hr => h3 hk r (hp.mem_iff.mp (List.mem_cons_of_mem _ hr)), fun r hr => ?_, h5.snoc trivial, fun c => ?_⟩
        · obtain ⟨e, he⟩ := h4 r (hp.mem_iff.mp (List.mem_cons_of_mem _ hr))
          exact ⟨e, List.mem_append_left _ he⟩
        · have e1 : answers c (s.tr ++ [.recv (.discard p corr reply)]) = answers c s.tr := by unfold answers; rw [List.countP_append, List.countP_singleton]; rfl
          have e2 : asked c (s.tr ++ [.recv (.discard p corr reply)]) = asked c s.tr := by unfold asked; rw [List.countP_append, List.countP_singleton]; rfl
          have e3 : discards c (s.tr ++ [.recv (.discard p corr reply)]) = discards c s.tr + if corr == c then 1 else 0 := by unfold discards; rw [List.countP_append, List.countP_singleton]; rfl
          show answers c (s.tr ++ [.recv (.discard p corr reply)]) + ((s.lookups.eraseP fun l => l.req.corr == corr).map (·.req)).countP _ ≤ asked c (s.tr ++ [.recv (.discard p corr reply)]) ∧ asked c (s.tr ++ [.recv (.discard p corr reply)]) ≤ answers c (s.tr ++ [.recv (.discard p corr reply)]) + ((s.lookups.eraseP fun l => l.req.corr == corr).map (·.req)).countP _ + discards c (s.tr ++ [.recv (.discard p corr reply)])
          have e4 := hp.countP_eq (fun r => r.corr == c)
          rw [List.countP_cons, hlc] at e4
          have := h6 c
          simp only [List.nil_append] at this
          rw [e1, e2, e3]
          omega
      exact h0.keeps (es := if reply then [.discarded p.ipc corr true] else []) rfl (hq true) rfl rfl (List.Perm.refl _)
    · exact (h.recv (.discard p corr reply) (by simp)).keeps (es := if reply then [.discarded p.ipc corr false] else []) rfl (hq false) rfl rfl (List.Perm.refl _)
  | ack p corr trid e =>
    show BInv ok ok ((s.emit _).ack p corr trid e) []
    have hb := h.recv (.ack p corr trid e) (by simp)
    rw [ack_eq]
    obtain ⟨es, ht, hq⟩ := ackPrep_tr (s.emit (.recv (.ack p corr trid e))) p corr trid e
    have hs := ackPrep_same (s.emit (.recv (.ack p corr trid e))) p corr trid e
    obtain ⟨hl, hd, hmt⟩ := ackPrep_lookups (s.emit (.recv (.ack p corr trid e))) p corr trid e
    have hpi := hi'.same hs
    have hq' : ∀ x ∈ es, BQuiet x := fun x hx => by obtain ⟨y, rfl⟩ := hq x hx; exact bquiet_rollback y
    generalize (s.emit (.recv (.ack p corr trid e))).ackPrep p corr trid e = t at ht hs hpi hl hd hmt
    have ht3 : BInv ok ok t [] := by
      have hm1 : BInv ok ok { s.emit (.recv (.ack p corr trid e)) with deadlines := t.deadlines, timer := t.timer } [] := by
        obtain ⟨h1, h2, h3, h4, h5, h6⟩ := hb
        obtain ⟨r1, r2, r3, r4⟩ := inOrder_remove corr h1
        refine ⟨by rw [hd]; exact r1, fun hk d hdm => ?_, h3, h4, h5, h6⟩
        change d ∈ t.deadlines at hdm
        show ∃ x, t.timer = some x ∧ x ≤ d.when_
        rw [hd] at hdm
        cases hn : (removeDeadline corr (s.emit (.recv (.ack p corr trid e))).deadlines).2 with
        | none => rw [hmt, hn]; exact h2 hk d (r2 d hdm)
        | at_ w => rw [hmt, hn]; exact ⟨w, rfl, r3 w hn d hdm⟩
        | undefined => rw [r4 hn] at hdm; cases hdm
      refine hm1.keeps (es := es) ht hq' rfl rfl ?_
      rw [hl]
    split
    · exact ht3
    · split
      · refine ht3.keeps (es := (ackShutdown p corr t.shutdowns).2) rfl ?_ rfl rfl (List.Perm.refl _)
        intro x hx
        obtain ⟨a, b, c, rfl⟩ := ackShutdown_shutdown x hx; exact bquiet_shutdown a b c
      · refine BInv.takePending id ?_ ?_ _ _
        · exact hpi.free _ rfl rfl rfl
        exact ht3.keeps (es := []) (by simp [State.modifySeq]) (by simp) rfl rfl (List.Perm.refl _)
  | exit pid e =>
    show BInv ok ok ((s.emit _).exit pid e) []
    have hb := h.recv (.exit pid e) (by simp)
    rw [exit_eq hi']
    refine BInv.again id ?_ _ ?_ e
    · exact (hi'.without fun q => q.pid == pid).same ⟨rfl, rfl, rfl⟩
    refine hb.keeps (es := (failShutdown pid s.shutdowns).2 ++ (s.callers (s.seqIds fun q => q.pid == pid)).map fun c => Ev.error c.1.ipc c.2 .serviceError) ?_ ?_ rfl rfl ?_
    · show ((s.tr ++ [_]) ++ _) ++ _ = _
      rw [List.append_assoc]; rfl
    · intro x hx
      rcases List.mem_append.mp hx with hx | hx
      · obtain ⟨a, b, c, rfl⟩ := failShutdown_shutdown x hx; exact bquiet_shutdown a b c
      · obtain ⟨c, -, rfl⟩ := List.mem_map.mp hx; exact bquiet_error _ _ _
    · show ((s.lookups.map Lookup.req ++ []) ++ []).Perm (s.lookups.map Lookup.req)
      rw [List.append_nil, List.append_nil]
  | prepareShutdown p corr ps e =>
    show BInv ok ok ((s.emit _).prepareShutdown p corr ps e) []
    have hb := h.recv (.prepareShutdown p corr ps e) (by simp)
    have hfr := prepareAll_frame (s.emit (.recv (.prepareShutdown p corr ps e))) ([], [], []) ps
    have hinv := hi'.prepareAll ([], [], []) ps
    have h1 : BInv ok ok ((s.emit (.recv (.prepareShutdown p corr ps e))).prepareAll ([], [], []) ps).1 [] :=
      hb.keeps (es := []) (by rw [hfr]; simp) (by simp) (by rw [hfr]) (by rw [hfr]) (by rw [hfr])
    have h2 : BInv ok ok ((s.emit (.recv (.prepareShutdown p corr ps e))).prepared ps e) [] := by
      unfold State.prepared
      simp only
      split
      · exact h1
      · refine BInv.again id ?_ _ ?_ e
        · exact hinv.same ⟨rfl, rfl, rfl⟩
        refine h1.keeps (es := []) (by simp) (by simp) rfl rfl ?_
        rw [List.append_nil, ← List.map_append]
        exact (filter_perm _ _ _ (fun _ => by simp)).map _
    rw [prepareShutdown_eq]
    simp only
    generalize (s.emit (.recv (.prepareShutdown p corr ps e))).prepared ps e = t at h2
    have hemit : BInv ok ok (t.emit (.shutdown p.ipc corr (((s.emit (.recv (.prepareShutdown p corr ps e))).prepareAll ([], [], []) ps).2.2.2 ++ (((s.emit (.recv (.prepareShutdown p corr ps e))).prepareAll ([], [], []) ps).2.2.1.filter fun i => !t.isBusy i).filterMap fun i => (Index.get t.seq i).map (·.proc)))) [] :=
      h2.keeps rfl (by simp [bquiet_shutdown]) rfl rfl (List.Perm.refl _)
    split <;> split
    · exact h2
    · exact hemit
    · exact h2.keeps (es := []) (by simp) (by simp) rfl rfl (List.Perm.refl _)
    · exact hemit.keeps (es := []) (by simp) (by simp) rfl rfl (List.Perm.refl _)
  | alarm e =>
    show BInv ok ok ((s.emit _).alarm e) []
    have hb := h.recv (.alarm e) (by simp)
    rw [alarm_eq]
    obtain ⟨-, hdw⟩ := takeWhile_inOrder e.now hb.order
    have h1 : BInv ok False ((s.emit (.recv (.alarm e))).alarmPrep e) [] := by
      obtain ⟨g1, g2, g3, g4, g5, g6⟩ := hb
      exact ⟨List.Pairwise.sublist (List.dropWhile_sublist _) g1, False.elim, g3, g4, g5, g6⟩
    have h2 : ∀ ds : List Entry, BInv ok False (ds.foldl State.expire ((s.emit (.recv (.alarm e))).alarmPrep e)) [] ∧
        (ds.foldl State.expire ((s.emit (.recv (.alarm e))).alarmPrep e)).deadlines = ((s.emit (.recv (.alarm e))).alarmPrep e).deadlines := by
      intro ds
      refine expire_ind (P := fun u => BInv ok False u [] ∧ u.deadlines = ((s.emit (.recv (.alarm e))).alarmPrep e).deadlines) ?_ ds ⟨h1, rfl⟩
      rintro t d ⟨ht, htd⟩
      have := expire_cases t d
      generalize t.expire d = t' at this
      cases this with
      | nothing => exact ⟨ht, htd⟩
      | lookup l hl =>
        refine ⟨?_, htd⟩
        exact ht.answered (r := l.req) (a := .timedOut l.req.proc.ipc l.req.corr) (es := []) (fun _ e he => ⟨l.req, e, he, rfl, rfl⟩) (fun _ => rfl) (fun _ => rfl) (fun _ => rfl) (by simp) (by simp) ht.order False.elim ((eraseP_perm hl).map _)
      | noCaller _ i x h1 h2 h3 h4 => exact ⟨ht.keeps (es := []) (by simp) (by simp) rfl rfl (List.Perm.refl _), htd⟩
      | caller _ i x c h1 h2 h3 h4 => exact ⟨ht.keeps rfl (by simp [bquiet_error, bquiet_assassinate]) rfl rfl (List.Perm.refl _), htd⟩
    obtain ⟨h3, h4⟩ := h2 ((s.emit (.recv (.alarm e))).deadlines.takeWhile fun d => decide (d.when_ < e.now))
    generalize ((s.emit (.recv (.alarm e))).deadlines.takeWhile fun d => decide (d.when_ < e.now)).foldl State.expire ((s.emit (.recv (.alarm e))).alarmPrep e) = u at h3 h4 ⊢
    have h4 : u.deadlines = (s.emit (.recv (.alarm e))).deadlines.dropWhile (fun d => decide (d.when_ < e.now)) := h4
    obtain ⟨g1, g2, g3, g4, g5, g6⟩ := h3
    split
    · rename_i d hd
      refine ⟨g1, fun _ => ?_, g3, g4, g5, g6⟩
      intro d' hd'
      refine ⟨d.when_, rfl, ?_⟩
      change d' ∈ u.deadlines at hd'
      rw [← h4] at hd
      cases hu : u.deadlines with
      | nil => rw [hu] at hd; cases hd
      | cons a l =>
        rw [hu] at hd hd' g1
        cases hd
        rcases List.mem_cons.mp hd' with rfl | hd'
        · exact Int.le_refl _
        · exact (List.pairwise_cons.mp g1).1 d' hd'
    · rename_i hd
      refine ⟨g1, fun _ => ?_, g3, g4, g5, g6⟩
      intro d' hd'
      rw [← h4, List.head?_eq_none_iff] at hd
      rw [hd] at hd'; cases hd'
  | discovered corr e =>
    show BInv ok ok ((s.emit _).discovered corr e) []
    have hb := h.recv (.discovered corr e) (by simp)
    rw [discovered_eq]
    split
    · exact hb
    · rename_i l hl
      have hp : (l.req :: ([] ++ (s.lookups.eraseP fun l => l.req.corr == corr).map (·.req))).Perm ([] ++ s.lookups.map (·.req)) := (eraseP_perm hl).map _
      split
      · refine BInv.lookup id ?_ ?_ e
        · exact hi'.same ⟨rfl, rfl, rfl⟩
        exact hb.keeps (es := []) (by simp) (by simp) rfl rfl hp
      · split
        · exact hb
        · exact hb.absent (r := l.req) (es := []) (by simp [State.noEntry, State.emit]) (by simp) rfl rfl hp
  | disassociate t => exact (h.recv (.disassociate t) (by simp)).keeps (es := []) (by simp [State.step, State.handle]) (by simp) rfl rfl (List.Perm.refl _)
  | undelivered ipc =>
    have hb := h.recv (.undelivered ipc) (by simp)
    show BInv ok ok (match (s.emit (.recv (.undelivered ipc))).seqOf ipc with | some i => (s.emit (.recv (.undelivered ipc))).modifySeq i SeqI.free | none => s.emit (.recv (.undelivered ipc))) []
    cases hf : (s.emit (.recv (.undelivered ipc))).seqOf ipc with
    | none => exact hb
    | some i => exact hb.keeps (es := []) (by simp [State.modifySeq]) (by simp) rfl rfl (List.Perm.refl _)

theorem BInv.init (c : Config) : BInv ok ok (State.init c) [] := by
  refine ⟨List.Pairwise.nil, fun _ d hd => ?_, fun _ r hr => ?_, fun r hr => ?_, AllGood.nil, fun c => ⟨?_, ?_⟩⟩
  · cases hd
  · cases hr
  · cases hr
  · exact Nat.le_refl _
  · exact Nat.le_refl _

theorem BInv.run {s : State} (hi : Inv s) (h : BInv ok ok s []) (is : List In) (hm : ok → ∀ m ∈ is, m.patient) : BInv ok ok (s.run is) [] := by
  unfold State.run
  induction is generalizing s with
  | nil => exact h
  | cons i is ih => exact ih (hi.step i) (h.step hi i fun hs => hm hs i List.mem_cons_self) fun hs m hmm => hm hs m (List.mem_cons_of_mem _ hmm)

end

end Casual.Service
