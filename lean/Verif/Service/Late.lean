import Verif.Service.Due
/-! Only calls that are late are ended. -/
namespace Casual.Service

/-- What is known of the instance was so before. -/
def BackS (s s' : State) : Prop :=
  ∀ i x' k, Index.get s'.seq i = some x' → x'.corr = some k → ∃ x, Index.get s.seq i = some x ∧ x.proc = x'.proc ∧ x.caller = x'.caller ∧ x.corr = some k

theorem BackS.refl_of_seq {s s' : State} (h : s'.seq = s.seq) : BackS s s' := by
  intro i x k hx hk
  exact ⟨x, by rw [← h]; exact hx, rfl, rfl, hk⟩

theorem BackS.trans {s s' s'' : State} (h : BackS s s') (h' : BackS s' s'') : BackS s s'' := by
  intro i x k hx hk
  obtain ⟨y, hy, hp, hc, hk1⟩ := h' i x k hx hk
  obtain ⟨z, hz, hp', hc', hk2⟩ := h i y k hy hk1
  exact ⟨z, hz, by rw [hp', hp], by rw [hc', hc], hk2⟩

structure RInv (s : State) : Prop where
  back : ∀ i x c k, Index.get s.seq i = some x → x.caller = some c → x.corr = some k → served x.proc.ipc s.tr = some (x.proc, c, k)
  duty : ∀ d ∈ s.deadlines, ∀ i x, d.target = some i → Index.get s.seq i = some x → x.corr = some d.corr → due x.proc.ipc s.tr = some d.when_
  tgt : ∀ d ∈ s.deadlines, d.target.isSome → 1 ≤ answers d.corr s.tr
  good : AllGood GoodEnd s.tr

theorem answers_mono (k : Nat) (tr es : List Ev) : answers k tr ≤ answers k (tr ++ es) := by
  unfold answers; rw [List.countP_append]; omega

/-- Not about what matters here. -/
def RQuiet (e : Ev) : Prop := SQuiet e ∧ DQuiet e ∧ ∀ a, GoodEnd a e

theorem RInv.keeps {s s' : State} (h : RInv s) {es : List Ev} (ht : s'.tr = s.tr ++ es) (hq : ∀ e ∈ es, RQuiet e) (hb : BackS s s')
    (hdl : ∀ d ∈ s'.deadlines, d ∈ s.deadlines) : RInv s' := by
  refine ⟨?_, ?_, ?_, ?_⟩
  · intro i x' c k hx hc hk
    obtain ⟨x, hx', hp, hc', hk'⟩ := hb i x' k hx hk
    rw [ht, served_quiet fun e he => (hq e he).1, ← hp]
    exact h.back i x c k hx' (by rw [hc']; exact hc) hk'
  · intro d hd i x' hdt hx hk
    obtain ⟨x, hx', hp, hc', hk'⟩ := hb i x' _ hx hk
    rw [ht, due_quiet fun e he => (hq e he).2.1, ← hp]
    exact h.duty d (hdl d hd) i x hdt hx' hk'
  · intro d hd hdt
    rw [ht]
    exact Nat.le_trans (h.tgt d (hdl d hd) hdt) (answers_mono _ _ _)
  · rw [ht]
    exact h.good.append fun a e he => (hq e he).2.2 a

/-- A message has come, and instances may have become idle, or have gone. -/
theorem RInv.less {s s' : State} (h : RInv s) (m : In) {es : List Ev} (ht : s'.tr = (s.tr ++ [.recv m]) ++ es) (hq : ∀ e ∈ es, RQuiet e)
    (hb : ∀ i x' k, Index.get s'.seq i = some x' → x'.corr = some k → ∃ x, Index.get s.seq i = some x ∧ x.proc = x'.proc ∧ x.caller = x'.caller ∧ x.corr = some k ∧
      ∀ c, x.caller = some c → servedStep x.proc.ipc (some (x.proc, c, k)) (.recv m) = some (x.proc, c, k))
    (hdl : ∀ d ∈ s'.deadlines, d ∈ s.deadlines) : RInv s' := by
  refine ⟨?_, ?_, ?_, ?_⟩
  · intro i x' c k hx hc hk
    obtain ⟨x, hx', hp, hc', hk', hst⟩ := hb i x' k hx hk
    rw [ht, served_quiet fun e he => (hq e he).1, ← hp, served_snoc, h.back i x c k hx' (by rw [hc']; exact hc) hk']
    exact hst c (by rw [hc']; exact hc)
  · intro d hd i x' hdt hx hk
    obtain ⟨x, hx', hp, hc', hk', -⟩ := hb i x' _ hx hk
    rw [ht, due_quiet fun e he => (hq e he).2.1, ← hp, due_snoc]
    exact h.duty d (hdl d hd) i x hdt hx' hk'
  · intro d hd hdt
    rw [ht, List.append_assoc]
    exact Nat.le_trans (h.tgt d (hdl d hd) hdt) (answers_mono _ _ _)
  · rw [ht]
    exact (AllGood.snoc (e := .recv m) h.good trivial).append fun a e he => (hq e he).2.2 a

/-- A message that frees nobody. -/
theorem RInv.recv {s : State} (h : RInv s) (m : In) (hm : ∀ ipc b, servedStep ipc b (.recv m) = b) : RInv (s.emit (.recv m)) :=
  h.less m (es := []) (by simp [State.emit]) (by simp) (fun i x k hx hk => ⟨x, hx, rfl, rfl, hk, fun _ _ => hm _ _⟩) (fun _ => id)

structure GInv (e : Env) (s : State) (rs : List Req) : Prop where
  inv : Inv s
  late : RInv s
  book : BInv False False s rs
  time : clock s.tr = some e.now
  once : ∀ k, asked k s.tr ≤ 1

theorem GInv.unanswered {e : Env} {s : State} {r : Req} {rs : List Req} (h : GInv e s (r :: rs)) : answers r.corr s.tr = 0 := by
  have h1 := (h.book.count r.corr).1
  have h2 := h.once r.corr
  rw [List.cons_append, List.countP_cons] at h1
  simp only [beq_self_eq_true, if_true] at h1
  omega

theorem claim_cases {corr v i : Nat} {l : List Entry} {d : Entry} (h : d ∈ claimEntry corr v i l) :
    d ∈ l ∨ ∃ d', l.find? (fun d => d.corr == corr) = some d' ∧ d = { d' with service := some v, target := some i } := by
  induction l with
  | nil => cases h
  | cons a l ih =>
    unfold claimEntry at h
    by_cases ha : a.corr = corr
    · rw [if_pos ha] at h
      rcases List.mem_cons.mp h with h | h
      · exact .inr ⟨a, by rw [List.find?_cons, show (a.corr == corr) = true by simp [ha]], h⟩
      · exact .inl (List.mem_cons_of_mem _ h)
    · rw [if_neg ha] at h
      rcases List.mem_cons.mp h with rfl | h
      · exact .inl List.mem_cons_self
      · rcases ih h with h | ⟨d', h1, h2⟩
        · exact .inl (List.mem_cons_of_mem _ h)
        · exact .inr ⟨d', by rw [List.find?_cons, show (a.corr == corr) = false by simp [ha]]; exact h1, h2⟩

/-- The entries after the reply: those that were there before, and the one for the call. -/
theorem seqDl_entries (s : State) (v : Svc) (i : Nat) (r : Req) (e : Env) : ∀ d ∈ (seqDl s v i r e).1, d ∈ s.deadlines ∨
    (d.corr = r.corr ∧ d.target = some i ∧ (seqDl s v i r e).2.2 = some (d.when_ - e.now)) := by
  unfold seqDl
  cases hf : s.deadlines.find? fun d => d.corr == r.corr with
  | some d0 =>
    dsimp only
    intro d hd
    rcases claim_cases hd with hd | ⟨d', h1, rfl⟩
    · exact .inl hd
    · rw [hf] at h1; cases h1
      exact .inr ⟨by simpa using List.find?_some hf, rfl, rfl⟩
  | none =>
    dsimp only
    cases hc : calcDeadline v.timeout e.now r.deadline with
    | none => exact fun d hd => .inl hd
    | some t =>
      dsimp only
      intro d hd
      rcases mem_add hd with rfl | hd
      · exact .inr ⟨rfl, rfl, rfl⟩
      · exact .inl hd

theorem rquiet_absent (a b c : Nat) : RQuiet (.absent a b c) := ⟨squiet_absent _ _ _, trivial, fun _ => trivial⟩
theorem rquiet_discover (a b : Nat) : RQuiet (.discover a b) := ⟨squiet_discover _ _, trivial, fun _ => trivial⟩
theorem rquiet_shutdown (a b : Nat) (c : List Proc) : RQuiet (.shutdown a b c) := ⟨squiet_shutdown _ _ _, trivial, fun _ => trivial⟩
theorem rquiet_rollback (a : Nat) : RQuiet (.rollback a) := ⟨squiet_rollback _, trivial, fun _ => trivial⟩
theorem rquiet_serviceError (a : Nat) (b : Option Nat) : RQuiet (.error a b .serviceError) := ⟨squiet_error _ _, trivial, fun _ => by cases b <;> trivial⟩
theorem rquiet_discarded (a b : Nat) (c : Bool) : RQuiet (.discarded a b c) := ⟨squiet_discarded _ _ _, trivial, fun _ => trivial⟩
theorem rquiet_timedOut (a b : Nat) : RQuiet (.timedOut a b) := ⟨squiet_timedOut _ _, trivial, fun _ => trivial⟩

theorem outcome_once {e : Env} {s s' : State} {r : Req} (o : Outcome s r e s') (hc : clock s.tr = some e.now) : clock s'.tr = some e.now ∧ ∀ k, asked k s'.tr = asked k s.tr := by
  refine ⟨?_, ?_⟩
  · cases o with
    | absent => show clock (s.tr ++ [_]) = _; rw [clock_snoc]; exact hc
    | discover =>
      rw [discover_eq]
      split
      · show clock (s.tr ++ [_]) = _; rw [clock_snoc]; exact hc
      · show clock ((s.tr ++ [_]) ++ [_]) = _; rw [clock_snoc, clock_snoc]; exact hc
    | forward => show clock (s.tr ++ [_]) = _; rw [clock_snoc]; exact hc
    | pending => exact hc
    | seq => show clock (s.tr ++ [_]) = _; rw [clock_snoc]; exact hc
    | con => show clock (s.tr ++ [_]) = _; rw [clock_snoc]; exact hc
  · intro k
    have one : ∀ (tr : List Ev) (a : Ev), noRecv a → asked k (tr ++ [a]) = asked k tr := by
      intro tr a ha
      unfold asked
      rw [List.countP_append, List.countP_singleton]
      cases a <;> first | rfl | exact absurd ha id
    cases o with
    | absent => show asked k (s.tr ++ [_]) = _; rw [one]; trivial
    | discover =>
      rw [discover_eq]
      split
      · show asked k (s.tr ++ [_]) = _; rw [one]; trivial
      · show asked k ((s.tr ++ [_]) ++ [_]) = _; rw [one, one]; trivial; trivial
    | forward => show asked k (s.tr ++ [_]) = _; rw [one]; trivial
    | pending => rfl
    | seq => show asked k (s.tr ++ [_]) = _; rw [one]; trivial
    | con => show asked k (s.tr ++ [_]) = _; rw [one]; trivial

theorem GInv.outcome {e : Env} {s s' : State} {r : Req} {rs : List Req} (h : GInv e s (r :: rs)) (o : Outcome s r e s') : GInv e s' rs := by
  refine ⟨h.inv.outcome o, ?_, h.book.outcome False.elim o, (outcome_once o h.time).1, fun k => by rw [(outcome_once o h.time).2]; exact h.once k⟩
  have hz := h.unanswered
  obtain ⟨hi, h, hbk, hc, ho⟩ := h
  cases o with
  | absent => exact h.keeps rfl (by simp [rquiet_absent]) (BackS.refl_of_seq rfl) (fun _ => id)
  | discover =>
    rw [discover_eq]
    split
    · exact h.keeps (es := [.discover r.name r.corr]) rfl (by simp [rquiet_discover]) (BackS.refl_of_seq rfl) (fun _ => id)
    · refine h.keeps (es := [.discover r.name r.corr, .absent r.proc.ipc r.corr r.name]) ?_ (by simp [rquiet_discover, rquiet_absent]) (BackS.refl_of_seq rfl) (fun _ => id)
      show (s.tr ++ [_]) ++ [_] = _
      simp
  | forward => exact h.keeps rfl (by intro e he; rw [List.mem_singleton] at he; subst he; exact ⟨fun _ _ => rfl, by simp [DQuiet], fun _ => trivial⟩) (BackS.refl_of_seq rfl) (fun _ => id)
  | pending v h1 h2 h3 h4 =>
    obtain ⟨g1, g2, g3, g4⟩ := h
    have hm : ∀ d ∈ pendDl s v r e, d ∈ s.deadlines ∨ d.target = none := by
      intro d hd
      unfold pendDl at hd
      split at hd
      · exact .inl hd
      · split at hd
        · rcases mem_add hd with rfl | hd
          · exact .inr rfl
          · exact .inl hd
        · exact .inl hd
    refine ⟨g1, fun d hd i x hdt => ?_, fun d hd hdt => ?_, g4⟩
    · rcases hm d hd with hd | hd
      · exact g2 d hd i x hdt
      · rw [hd] at hdt; cases hdt
    · rcases hm d hd with hd | hd
      · exact g3 d hd hdt
      · rw [hd] at hdt; cases hdt
  | con => exact h.keeps rfl (by intro e he; rw [List.mem_singleton] at he; subst he; exact ⟨fun _ _ => rfl, by simp [DQuiet], fun _ => trivial⟩) (BackS.refl_of_seq rfl) (fun _ => id)
  | seq v i x h1 h2 h3 h4 =>
    obtain ⟨g1, g2, g3, g4⟩ := h
    -- the instances afterwards
    have hget : ∀ j y, Index.get (Index.modify s.seq i (SeqI.reserve r v.name)) j = some y → (j = i ∧ y = SeqI.reserve r v.name x) ∨ (j ≠ i ∧ y.proc.ipc ≠ x.proc.ipc ∧ Index.get s.seq j = some y) := by
      intro j y hy
      rw [get_reserve r v.name h3] at hy
      cases hgj : Index.get s.seq j with
      | none => rw [hgj] at hy; cases hy
      | some z =>
        rw [hgj] at hy
        by_cases hji : j = i
        · subst hji
          rw [h3] at hgj; cases hgj
          refine .inl ⟨rfl, ?_⟩
          simpa using hy.symm
        · have : z = y := by simpa [hji] using hy
          subst this
          exact .inr ⟨hji, fun he => hji (hi.seqIpc j i z x hgj h3 he), rfl⟩
    refine ⟨?_, ?_, ?_, g4.snoc trivial⟩
    · intro j y c k hy hyc hyk
      show served y.proc.ipc (s.tr ++ [_]) = _
      rw [served_snoc]
      simp only [servedStep]
      rcases hget j y hy with ⟨rfl, rfl⟩ | ⟨hji, hne, hy'⟩
      · rw [if_pos (show x.proc.ipc = (SeqI.reserve r v.name x).proc.ipc from rfl)]
        change (if r.noReply then none else some r.proc) = some c at hyc
        change some r.corr = some k at hyk
        split at hyc
        · cases hyc
        · rename_i hno
          rw [if_neg hno]
          simp only [Option.some.injEq] at hyc hyk
          rw [hyc, hyk]; rfl
      · rw [if_neg fun h => hne h.symm]
        exact g1 j y c k hy' hyc hyk
    · intro d hd j y hdt hy hyk
      show due y.proc.ipc (s.tr ++ [_]) = _
      rw [due_snoc]
      simp only
      rcases hget j y hy with ⟨rfl, rfl⟩ | ⟨hji, hne, hy'⟩
      · change some r.corr = some d.corr at hyk
        simp only [Option.some.injEq] at hyk
        rcases seqDl_entries s v j r e d hd with hd | ⟨-, -, hleft⟩
        · have := g3 d hd (by rw [hdt]; rfl)
          rw [← hyk, hz] at this
          omega
        · show (if x.proc.ipc = x.proc.ipc then _ else _) = _
          rw [if_pos rfl, hc, hleft]
          have : e.now + (d.when_ - e.now) = d.when_ := by
            show (e.now : Int) + ((d.when_ : Int) - e.now) = d.when_
            rw [Int.add_comm, Int.sub_add_cancel]
          simp [this]
      · rw [if_neg fun h => hne h.symm]
        rcases seqDl_entries s v i r e d hd with hd | ⟨-, hti, -⟩
        · exact g2 d hd j y hdt hy' hyk
        · rw [hti] at hdt; cases hdt; exact absurd rfl hji
    · intro d hd hdt
      show 1 ≤ answers d.corr (s.tr ++ [_])
      rcases seqDl_entries s v i r e d hd with hd | ⟨hdc, -, -⟩
      · exact Nat.le_trans (g3 d hd hdt) (answers_mono _ _ _)
      · unfold answers
        rw [List.countP_append, List.countP_singleton]
        simp [isAnswer, hdc]

theorem GInv.lookup {e : Env} {s : State} {r : Req} {rs : List Req} (h : GInv e s (r :: rs)) : GInv e (s.lookup r e) rs :=
  h.outcome (lookup_outcome h.inv r e)

theorem GInv.again {e : Env} {s : State} {rs : List Req} (ls : List Lookup) (h : GInv e s (ls.map (·.req) ++ rs)) : GInv e (s.again ls e) rs := by
  unfold State.again
  induction ls generalizing s with
  | nil => exact h
  | cons l ls ih => exact ih h.lookup

/-- All is quiet. -/
def GQuiet (e : Ev) : Prop := RQuiet e ∧ BQuiet e ∧ noRecv e

theorem gquiet_shutdown (a b : Nat) (c : List Proc) : GQuiet (.shutdown a b c) := ⟨rquiet_shutdown _ _ _, bquiet_shutdown _ _ _, trivial⟩
theorem gquiet_rollback (a : Nat) : GQuiet (.rollback a) := ⟨rquiet_rollback _, bquiet_rollback _, trivial⟩
theorem gquiet_serviceError (a : Nat) (b : Option Nat) : GQuiet (.error a b .serviceError) := ⟨rquiet_serviceError _ _, bquiet_error _ _ _, trivial⟩

theorem GInv.keeps {e : Env} {s s' : State} {rs rs' : List Req} (h : GInv e s rs) (hi : Inv s') {es : List Ev} (ht : s'.tr = s.tr ++ es) (hq : ∀ e ∈ es, GQuiet e)
    (hd : s'.deadlines = s.deadlines) (hm : s'.timer = s.timer) (hb : BackS s s') (hl : (rs' ++ s'.lookups.map (·.req)).Perm (rs ++ s.lookups.map (·.req))) : GInv e s' rs' := by
  refine ⟨hi, ?_, h.book.keeps ht (fun x hx => (hq x hx).2.1) hd hm hl, ?_, ?_⟩
  · exact h.late.keeps ht (fun x hx => (hq x hx).1) hb (by rw [hd]; exact fun _ => id)
  · rw [ht, clock_quiet fun x hx => (hq x hx).2.2]; exact h.time
  · intro k
    rw [ht, (count_quiet (fun x hx => (hq x hx).2.1) k s.tr).2.1]
    exact h.once k

theorem GInv.takePending {e : Env} {s : State} (h : GInv e s []) (i : Nat) : GInv e (s.takePending i e) [] := by
  rw [takePending_eq]
  split
  · rename_i l hl
    refine GInv.lookup ?_
    exact h.keeps (h.inv.same ⟨rfl, rfl, rfl⟩) (es := []) (by simp) (by simp) rfl rfl (BackS.refl_of_seq rfl) ((eraseP_perm hl).map _)
  · exact h

theorem backS_modify {s s' : State} {i : Nat} {f : SeqI → SeqI} (hq : s'.seq = Index.modify s.seq i f) (hf : ∀ x, (f x).proc = x.proc ∧ (((f x).corr = x.corr ∧ (f x).caller = x.caller) ∨ (f x).corr = none)) : BackS s s' := by
  intro j x' k hx hk
  rw [hq, Index.get_modify] at hx
  split at hx
  · rename_i e; subst e
    cases hg : Index.get s.seq j with
    | none => rw [hg] at hx; cases hx
    | some x =>
      rw [hg] at hx
      simp only [Option.map_some, Option.some.injEq] at hx
      subst hx
      rcases (hf x).2 with ⟨h, h'⟩ | h
      · exact ⟨x, rfl, (hf x).1.symm, h'.symm, by rw [← h]; exact hk⟩
      · rw [h] at hk; cases hk
  · exact ⟨x', hx, rfl, rfl, hk⟩

theorem backS_seqFor (s : State) (p : Proc) (alias : Nat) : BackS s (s.seqFor p alias).2 := by
  intro i x' k hx hk
  rcases seqFor_spec (s := s) p alias with ⟨y, -, hy, -, hg⟩ | ⟨-, hy, hg⟩
  · rw [hg] at hx
    split at hx
    · rename_i e; subst e; cases hx; exact ⟨y, hy, rfl, rfl, hk⟩
    · exact ⟨x', hx, rfl, rfl, hk⟩
  · rw [hg] at hx
    split at hx
    · cases hx; cases hk
    · exact ⟨x', hx, rfl, rfl, hk⟩

theorem backS_addSeqServices (i : Nat) (s : State) (add : List Nat) : BackS s (add.foldl (State.addSeqService i) s) := by
  induction add generalizing s with
  | nil => exact BackS.refl_of_seq rfl
  | cons n add ih =>
    refine BackS.trans ?_ (ih _)
    rw [addSeqService_eq]
    exact backS_modify rfl fun x => ⟨rfl, .inl ⟨rfl, rfl⟩⟩

/-- Those that are still there after the removal. -/
theorem without_back {s : State} {p : Proc → Bool} {i : Nat} {x' : SeqI} (hx : Index.get (s.without p).seq i = some x') : Index.get s.seq i = some x' ∧ p x'.proc = false := by
  rw [without_seq] at hx
  split at hx
  · cases hx
  · rename_i hn
    refine ⟨hx, ?_⟩
    rw [hx] at hn
    simpa using hn

theorem backS_without (s : State) (p : Proc → Bool) : BackS s (s.without p) := by
  intro i x' k hx hk
  exact ⟨x', (without_back hx).1, rfl, rfl, hk⟩

theorem served_twice {ipc ipc' : Nat} {tr : List Ev} {t c t' c' : Proc} {k : Nat} (hne : ipc ≠ ipc') (h : served ipc tr = some (t, c, k)) (h' : served ipc' tr = some (t', c', k)) : 2 ≤ answers k tr := by
  induction tr using snocInd generalizing t c t' c' with
  | nil => cases h
  | snoc tr e ih =>
    rw [served_snoc] at h h'
    have hmono := answers_mono k tr [e]
    have old : served ipc tr = some (t, c, k) → served ipc' tr = some (t', c', k) → 2 ≤ answers k (tr ++ [e]) := fun h h' => Nat.le_trans (ih h h') hmono
    cases e with
    | recv m => exact old (servedStep_le ipc _ m _ h) (servedStep_le ipc' _ m _ h')
    | idle r kind q left =>
      cases kind with
      | sequential =>
        simp only [servedStep] at h h'
        have hplus : r.corr = k → 1 ≤ answers k tr → 2 ≤ answers k (tr ++ [.idle r .sequential q left]) := by
          intro hk h1
          have : isAnswer k (.idle r .sequential q left) = true := by simp [isAnswer, hk]
          unfold answers at h1 ⊢
          rw [List.countP_append, List.countP_singleton, this]
          simp only [if_true]
          omega
        split at h
        · rename_i hq
          rw [if_neg (by rw [hq]; exact hne)] at h'
          split at h
          · cases h
          · simp only [Option.some.injEq, Prod.mk.injEq] at h
            exact hplus h.2.2 (served_answers h')
        · split at h'
          · split at h'
            · cases h'
            · simp only [Option.some.injEq, Prod.mk.injEq] at h'
              exact hplus h'.2.2 (served_answers h)
          · exact old h h'
      | concurrent => exact old h h'
      | forward => exact old h h'
    | error to corr code =>
      cases corr <;> cases code <;> first | exact old h h' | exact old (Option.filter_eq_some_iff.mp h).1 (Option.filter_eq_some_iff.mp h').1
    | _ => exact old h h'

/-- Nobody else serves the same call. -/
def Alone (tr : List Ev) : Prop := ∀ ipc ipc' t c t' c' k, served ipc tr = some (t, c, k) → served ipc' tr = some (t', c', k) → ipc = ipc'

theorem Alone.of {s : State} (hbk : BInv False False s []) (ho : ∀ k, asked k s.tr ≤ 1) : Alone s.tr := by
  intro ipc ipc' t c t' c' k h h'
  by_cases hne : ipc = ipc'
  · exact hne
  · have h1 := served_twice hne h h'
    have h2 := (hbk.count k).1
    have h3 := ho k
    omega

/-- The expiry of one deadline after the other. -/
theorem RInv.expires (now : Time) (rest : List Entry) (ds : List Entry) (t : State) (hd : t.deadlines = rest) (hi : Inv t) (h : RInv { t with deadlines := ds ++ rest }) (ha : Alone t.tr)
    (hc : clock t.tr = some now) (hlt : ∀ d ∈ ds, d.when_ < now) : RInv (ds.foldl State.expire t) := by
  induction ds generalizing t with
  | nil => subst hd; exact h
  | cons d ds ih =>
    rw [List.foldl_cons]
    have hlt' : ∀ d ∈ ds, d.when_ < now := fun x hx => hlt x (List.mem_cons_of_mem _ hx)
    have hsub : ∀ x ∈ ds ++ rest, x ∈ d :: ds ++ rest := fun x hx => List.mem_cons_of_mem _ hx
    have := expire_cases t d
    generalize t.expire d = t' at this
    cases this with
    | nothing => exact ih t hd hi (h.keeps (es := []) (by simp) (by simp) (BackS.refl_of_seq rfl) hsub) ha hc hlt'
    | lookup l hl =>
      refine ih _ hd (hi.same ⟨rfl, rfl, rfl⟩) (h.keeps (es := [.timedOut l.req.proc.ipc l.req.corr]) rfl (by simp [rquiet_timedOut]) (BackS.refl_of_seq rfl) hsub) ?_ ?_ hlt'
      · intro ipc ipc' a b a' b' k
        show served ipc (t.tr ++ [_]) = _ → served ipc' (t.tr ++ [_]) = _ → _
        rw [served_snoc, served_snoc]
        exact ha ipc ipc' a b a' b' k
      · show clock (t.tr ++ [_]) = _
        rw [clock_snoc]; exact hc
    | noCaller _ i x h1 h2 h3 h4 =>
      exact ih _ hd (hi.timedOut h2 h3 rfl rfl rfl) (h.keeps (es := []) (by simp) (by simp) (backS_modify (i := i) rfl fun x => ⟨rfl, .inr rfl⟩) hsub) ha hc hlt'
    | caller _ i x c h1 h2 h3 h4 =>
      have hserved := h.back i x c d.corr h2 h4 h3
      change served x.proc.ipc t.tr = _ at hserved
      have hdue := h.duty d (by simp) i x h1 h2 h3
      change due x.proc.ipc t.tr = _ at hdue
      have hb : BackS t { t with seq := Index.modify t.seq i fun x => { x with caller := none, corr := none } } := backS_modify rfl fun x => ⟨rfl, .inr rfl⟩
      have hgone : ∀ j y k, Index.get (Index.modify t.seq i fun x => { x with caller := none, corr := none }) j = some y → y.corr = some k → j ≠ i := by
        intro j y k hy hk hji
        subst hji
        rw [Index.get_modify, if_pos rfl, h2] at hy
        simp only [Option.map_some, Option.some.injEq] at hy
        subst hy
        cases hk
      have hsrv : ∀ ipc, served ipc (t.tr ++ [.error c.ipc (some d.corr) .timeout, .assassinate x.proc.pid]) = (served ipc t.tr).filter fun y => !(y.2.1.ipc == c.ipc && y.2.2 == d.corr) := by
        intro ipc
        rw [show t.tr ++ [.error c.ipc (some d.corr) .timeout, .assassinate x.proc.pid] = (t.tr ++ [.error c.ipc (some d.corr) .timeout]) ++ [.assassinate x.proc.pid] by simp, served_snoc, served_snoc]
        rfl
      have hdu : ∀ ipc, due ipc (t.tr ++ [.error c.ipc (some d.corr) .timeout, .assassinate x.proc.pid]) = due ipc t.tr := fun ipc => due_quiet (by simp [DQuiet])
      refine ih _ hd (hi.timedOut h2 h3 rfl rfl rfl) ⟨?_, ?_, ?_, ?_⟩ ?_ ?_ hlt'
      · intro j y c' k hy hyc hyk
        have hji := hgone j y k hy hyk
        obtain ⟨z, hz, hzp, hzc, hzk⟩ := hb j y k hy hyk
        have hz2 := h.back j z c' k hz (by rw [hzc]; exact hyc) hzk
        change served z.proc.ipc t.tr = _ at hz2
        show served y.proc.ipc (t.tr ++ _) = _
        rw [hsrv, ← hzp, hz2]
        rw [Option.filter_some, if_pos]
        simp only [Bool.not_eq_true', Bool.and_eq_false_iff, beq_eq_false_iff_ne]
        refine .inr fun hk => ?_
        subst hk
        have hip := ha _ _ _ _ _ _ _ hz2 hserved
        exact hji (hi.seqIpc j i z x hz h2 hip)
      · intro d' hd' j y hdt hy hyk
        obtain ⟨z, hz, hzp, hzc, hzk⟩ := hb j y _ hy hyk
        show due y.proc.ipc (t.tr ++ _) = _
        rw [hdu, ← hzp]
        exact h.duty d' (hsub d' hd') j z hdt hz hzk
      · intro d' hd' hdt
        exact Nat.le_trans (h.tgt d' (hsub d' hd') hdt) (answers_mono _ _ _)
      · show AllGood GoodEnd (t.tr ++ [_, _])
        rw [show t.tr ++ [Ev.error c.ipc (some d.corr) .timeout, .assassinate x.proc.pid] = (t.tr ++ [.error c.ipc (some d.corr) .timeout]) ++ [.assassinate x.proc.pid] by simp]
        have hdn : d.when_ < now := hlt d List.mem_cons_self
        refine AllGood.snoc (AllGood.snoc h.good ?_) ?_
        · exact ⟨x.proc.ipc, x.proc, c, d.when_, now, hserved, rfl, hdue, hc, hdn⟩
        · exact ⟨t.tr, c.ipc, d.corr, x.proc.ipc, x.proc, c, d.when_, now, rfl, hserved, hdue, hc, hdn, rfl⟩
      · intro ipc ipc' a b a' b' k
        show served ipc (t.tr ++ _) = _ → served ipc' (t.tr ++ _) = _ → _
        rw [hsrv, hsrv]
        exact fun h1 h2 => ha ipc ipc' a b a' b' k (Option.filter_eq_some_iff.mp h1).1 (Option.filter_eq_some_iff.mp h2).1
      · show clock (t.tr ++ [_, _]) = _
        rw [clock_quiet (by simp [noRecv])]
        exact hc

theorem mem_takeWhile_lt {now : Time} {d : Entry} : ∀ {l : List Entry}, d ∈ l.takeWhile (fun d => decide (d.when_ < now)) → d.when_ < now
  | [], h => by simp at h
  | x :: l, h => by
    by_cases hx : x.when_ < now
    · rw [List.takeWhile_cons_of_pos (by simp [hx])] at h
      rcases List.mem_cons.mp h with rfl | h
      · exact hx
      · exact mem_takeWhile_lt h
    · rw [List.takeWhile_cons_of_neg (by simp [hx])] at h
      cases h


theorem RInv.step {s : State} (hi : Inv s) (h : RInv s) (hbk : BInv False False s []) (m : In) (ho : ∀ k, asked k (s.tr ++ [.recv m]) ≤ 1) : RInv (s.step m) := by
  have hi' : Inv (s.emit (.recv m)) := hi.same ⟨rfl, rfl, rfl⟩
  have hclk : ∀ e : Env, m.time = some e.now → clock (s.emit (.recv m)).tr = some e.now := by
    intro e he
    show clock (s.tr ++ [.recv m]) = _
    rw [clock_snoc]
    show m.time.or _ = _
    rw [he]; rfl
  have base : (∀ ipc b, servedStep ipc b (.recv m) = b) → (∀ r e, m ≠ .lookup r e) → ∀ e : Env, m.time = some e.now → GInv e (s.emit (.recv m)) [] :=
    fun hm hl e he => ⟨hi', h.recv m hm, hbk.recv m hl, hclk e he, ho⟩
  cases m with
  | lookup r e => exact (GInv.lookup (e := e) (rs := []) ⟨hi', h.recv _ (fun _ _ => rfl), hbk.ask e False.elim, hclk e rfl, ho⟩).late
  | advertise p alias add remove e =>
    show RInv ((s.emit _).advertise p alias add remove e)
    have hf := base (fun _ _ => rfl) (by simp) e rfl
    rw [advertise_eq]
    split
    · rw [remove_eq hi']
      exact hf.late.keeps (es := []) (by simp [State.without]) (by simp) (backS_without _ _) (fun _ => id)
    · have hfr := seqFor_eq (s.emit (.recv (.advertise p alias add remove e))) p alias
      have hsi := seqFor_isSome (s.emit (.recv (.advertise p alias add remove e))) p alias
      have hsf := hi'.seqFor p alias
      have hbc := backS_seqFor (s.emit (.recv (.advertise p alias add remove e))) p alias
      generalize (s.emit (.recv (.advertise p alias add remove e))).seqFor p alias = r at hfr hsi hsf hbc ⊢
      obtain ⟨i, t⟩ := r
      dsimp only at hfr hsi hsf hbc ⊢
      split
      · exact hf.late.keeps (es := []) (by rw [hfr]; simp) (by simp) hbc (by rw [hfr]; exact fun _ => id)
      · have hfr2 := addSeqServices_frame i t (add.filter fun n => (s.emit (.recv (.advertise p alias add remove e))).allowed alias n)
        have hbc2 := backS_addSeqServices i t (add.filter fun n => (s.emit (.recv (.advertise p alias add remove e))).allowed alias n)
        have hui := (hsf.addSeqServices hsi (add.filter fun n => (s.emit (.recv (.advertise p alias add remove e))).allowed alias n)).removeSeqServices i remove
        generalize (add.filter fun n => (s.emit (.recv (.advertise p alias add remove e))).allowed alias n).foldl (State.addSeqService i) t = u at hfr2 hbc2 hui ⊢
        refine (GInv.takePending (e := e) (hf.keeps (es := []) hui ?_ (by simp) ?_ ?_ ?_ ?_) _).late
        · show u.tr = _
          rw [hfr2, hfr]; simp
        · show u.deadlines = _
          rw [hfr2, hfr]
        · show u.timer = _
          rw [hfr2, hfr]
        · exact hbc.trans (hbc2.trans (backS_modify (i := i) rfl fun _ => ⟨rfl, .inl ⟨rfl, rfl⟩⟩))
        · show ([] ++ u.lookups.map _).Perm _
          rw [hfr2, hfr]
  | cadvertise p alias order add remove e =>
    show RInv ((s.emit _).cadvertise p alias order add remove e)
    have hf := base (fun _ _ => rfl) (by simp) e rfl
    rw [cadvertise_eq, takeReady_eq]
    have hcf := conFor_eq (s.emit (.recv (.cadvertise p alias order add remove e))) p alias order
    have hinv := hi'.conFor p alias order
    have hsome := conFor_isSome (s.emit (.recv (.cadvertise p alias order add remove e))) p alias order
    generalize (s.emit (.recv (.cadvertise p alias order add remove e))).conFor p alias order = r at hcf hinv hsome ⊢
    obtain ⟨i, t⟩ := r
    dsimp only at hcf hinv hsome ⊢
    have hfr := addConServices_frame i order t (add.filter fun n => (s.emit (.recv (.cadvertise p alias order add remove e))).allowed alias n.1)
    have hinv2 := (hinv.addConServices hsome order (add.filter fun n => (s.emit (.recv (.cadvertise p alias order add remove e))).allowed alias n.1)).removeConServices i remove
    generalize (add.filter fun n => (s.emit (.recv (.cadvertise p alias order add remove e))).allowed alias n.1).foldl (State.addConService i order) t = u at hfr hinv2 ⊢
    have hb2 : GInv e (u.removeConServices i remove) [] := by
      refine hf.keeps (es := []) hinv2 ?_ (by simp) ?_ ?_ ?_ ?_
      · show u.tr = _
        rw [hfr, hcf]; simp
      · show u.deadlines = _
        rw [hfr, hcf]
      · show u.timer = _
        rw [hfr, hcf]
      · refine BackS.refl_of_seq ?_
        show u.seq = _
        rw [hfr, hcf]
      · show ([] ++ u.lookups.map _).Perm _
        rw [hfr, hcf]
    generalize u.removeConServices i remove = w at hb2 hinv2 ⊢
    refine (GInv.again (e := e) (rs := []) _ ?_).late
    refine hb2.keeps (es := []) (hinv2.same ⟨rfl, rfl, rfl⟩) (by simp) (by simp) rfl rfl (BackS.refl_of_seq rfl) ?_
    rw [List.append_nil, ← List.map_append]
    exact (filter_perm w.lookups w.ready (fun l => !w.ready l) (fun _ => rfl)).map _
  | creset p =>
    show RInv ((s.emit _).remove _).1
    rw [remove_eq hi']
    exact (h.recv (.creset p) (fun _ _ => rfl)).keeps (es := []) (by simp [State.without]) (by simp) (backS_without _ _) (fun _ => id)
  | cinstance p alias order =>
    show RInv ((s.emit _).cinstance p alias order)
    have hb := h.recv (.cinstance p alias order) (fun _ _ => rfl)
    unfold State.cinstance
    split
    · exact hb
    · exact hb.keeps (es := []) (by simp) (by simp) (BackS.refl_of_seq rfl) (fun _ => id)
  | discard p corr reply =>
    show RInv ((s.emit _).discard p corr reply)
    rw [discard_eq]
    split
    · rename_i hany
      have hany : s.lookups.any (fun l => l.req.corr == corr) = true := hany
      refine h.less (.discard p corr reply) (es := if reply then [.discarded p.ipc corr true] else []) rfl (by cases reply <;> simp [rquiet_discarded]) ?_ (fun _ => id)
      intro i x k hx hk
      refine ⟨x, hx, rfl, rfl, hk, fun c hc => ?_⟩
      have hne : k ≠ corr := by
        intro he
        subst he
        obtain ⟨l, hl, hlc⟩ := List.any_eq_true.mp hany
        have hon : ∀ k, asked k s.tr ≤ 1 := fun k => Nat.le_trans (asked_mono k _ _) (ho k)
        exact nobody_waits hbk hon (h.back i x c k hx hc hk) l hl (by simpa using hlc)
      simp [servedStep, hne]
    · refine h.less (.discard p corr reply) (es := if reply then [.discarded p.ipc corr false] else []) rfl (by cases reply <;> simp [rquiet_discarded]) ?_ (fun _ => id)
      intro i x' k hx hk
      change Index.get (s.seq.map _) i = _ at hx
      rw [Index.get_map] at hx
      cases hg : Index.get s.seq i with
      | none => rw [hg] at hx; cases hx
      | some x =>
        rw [hg] at hx
        simp only [Option.map_some, Option.some.injEq] at hx
        subst hx
        unfold SeqI.discardCorr at hk ⊢
        split at hk
        · cases hk
        · rename_i hne
          rw [if_neg hne]
          refine ⟨x, rfl, rfl, rfl, hk, fun c hc => ?_⟩
          have hres : x.reserved.isSome := by
            cases hr : x.reserved with
            | some _ => rfl
            | none =>
              have := (hi.idle i x hg hr).2
              rw [hk] at this; cases this
          have : k ≠ corr := fun he => hne ⟨hres, by rw [hk, he]⟩
          simp [servedStep, this]
  | ack p corr trid e =>
    show RInv ((s.emit _).ack p corr trid e)
    rw [ack_eq]
    obtain ⟨es, ht, hq⟩ := ackPrep_tr (s.emit (.recv (.ack p corr trid e))) p corr trid e
    have hs := ackPrep_same (s.emit (.recv (.ack p corr trid e))) p corr trid e
    obtain ⟨hl, hd, hmt⟩ := ackPrep_lookups (s.emit (.recv (.ack p corr trid e))) p corr trid e
    have hpi := hi'.same hs
    have hq' : ∀ x ∈ es, GQuiet x := fun x hx => by obtain ⟨y, rfl⟩ := hq x hx; exact gquiet_rollback y
    have hbk' := hbk.recv (.ack p corr trid e) (by simp)
    have hc' := hclk e rfl
    generalize (s.emit (.recv (.ack p corr trid e))).ackPrep p corr trid e = t at ht hs hpi hl hd hmt
    have hts : t.seq = s.seq := hs.seq
    have hdl : ∀ d ∈ t.deadlines, d ∈ s.deadlines := fun d hdm => by rw [hd] at hdm; exact mem_remove hdm
    have hstay : ∀ (x : SeqI) (k : Nat) (c : Proc), x.proc.ipc ≠ p.ipc → servedStep x.proc.ipc (some (x.proc, c, k)) (.recv (.ack p corr trid e)) = some (x.proc, c, k) := by
      intro x k c hne
      simp only [servedStep]
      rw [if_neg fun h => hne h.symm]
    split
    · rename_i hf
      refine h.less _ ht (fun x hx => (hq' x hx).1) ?_ hdl
      intro i x k hx hk
      rw [hts] at hx
      exact ⟨x, hx, rfl, rfl, hk, fun c _ => hstay x k c (seqOf_none hf (by rw [hts]; exact hx))⟩
    · rename_i i hf
      obtain ⟨y, hy, hyp⟩ := seqOf_some hf
      have key : ∀ j x' k, Index.get (Index.modify t.seq i SeqI.free) j = some x' → x'.corr = some k → ∃ x, Index.get s.seq j = some x ∧ x.proc = x'.proc ∧ x.caller = x'.caller ∧ x.corr = some k ∧
          ∀ c, x.caller = some c → servedStep x.proc.ipc (some (x.proc, c, k)) (.recv (.ack p corr trid e)) = some (x.proc, c, k) := by
        intro j x' k hx hk
        rw [Index.get_modify] at hx
        split at hx
        · subst ‹j = i›
          rw [hy] at hx
          simp only [Option.map_some, Option.some.injEq] at hx
          subst hx
          cases hk
        · rename_i hji
          refine ⟨x', by rw [← hts]; exact hx, rfl, rfl, hk, fun c _ => hstay x' k c fun he => hji ?_⟩
          exact hpi.seqIpc j i x' y hx hy (by rw [he, hyp])
      split
      · refine h.less _ (es := es ++ (ackShutdown p corr t.shutdowns).2) ?_ ?_ key hdl
        · show t.tr ++ _ = _
          rw [ht]; exact List.append_assoc _ _ _
        · intro x hx
          rcases List.mem_append.mp hx with hx | hx
          · exact (hq' x hx).1
          · obtain ⟨a, b, c, rfl⟩ := ackShutdown_shutdown x hx; exact rquiet_shutdown a b c
      · refine (GInv.takePending (e := e) ⟨?_, ?_, ?_, ?_, ?_⟩ _).late
        · exact hpi.free _ rfl rfl rfl
        · exact h.less _ ht (fun x hx => (hq' x hx).1) key hdl
        · obtain ⟨h1, h2, h3, h4, h5, h6⟩ := hbk'
          have h0 : BInv False False { s.emit (.recv (.ack p corr trid e)) with deadlines := t.deadlines, timer := t.timer } [] :=
            ⟨by rw [hd]; exact (inOrder_remove corr h1).1, False.elim, h3, h4, h5, h6⟩
          refine h0.keeps (es := es) ht (fun x hx => (hq' x hx).2.1) rfl rfl ?_
          show ([] ++ t.lookups.map _).Perm _
          rw [hl]
        · show clock t.tr = _
          rw [ht, clock_quiet fun x hx => (hq' x hx).2.2]; exact hc'
        · intro k
          show asked k t.tr ≤ _
          rw [ht, (count_quiet (fun x hx => (hq' x hx).2.1) k _).2.1]
          exact ho k
  | exit pid e =>
    show RInv ((s.emit _).exit pid e)
    rw [exit_eq hi']
    have heq : ((s.emit (.recv (.exit pid e))).exitPrep pid).tr = (s.tr ++ [.recv (.exit pid e)]) ++ ((failShutdown pid s.shutdowns).2 ++ (s.callers (s.seqIds fun q => q.pid == pid)).map fun c => Ev.error c.1.ipc c.2 .serviceError) := by
      show ((s.tr ++ [_]) ++ _) ++ _ = _
      rw [List.append_assoc]; rfl
    have hq : ∀ x ∈ ((failShutdown pid s.shutdowns).2 ++ (s.callers (s.seqIds fun q => q.pid == pid)).map fun c => Ev.error c.1.ipc c.2 .serviceError), GQuiet x := by
      intro x hx
      rcases List.mem_append.mp hx with hx | hx
      · obtain ⟨a, b, c, rfl⟩ := failShutdown_shutdown x hx; exact gquiet_shutdown a b c
      · obtain ⟨c, -, rfl⟩ := List.mem_map.mp hx; exact gquiet_serviceError _ _
    refine (GInv.again (e := e) (rs := []) _ ⟨?_, ?_, ?_, ?_, ?_⟩).late
    · exact (hi'.without fun q => q.pid == pid).same ⟨rfl, rfl, rfl⟩
    · refine h.less _ heq (fun x hx => (hq x hx).1) ?_ (fun _ => id)
      intro i x k hx hk
      obtain ⟨hx', hne⟩ := without_back (s := s.emit (.recv (.exit pid e))) hx
      refine ⟨x, hx', rfl, rfl, hk, fun c _ => ?_⟩
      have hne' : x.proc.pid ≠ pid := by simpa using hne
      simp [servedStep, hne']
    · refine (hbk.recv (.exit pid e) (by simp)).keeps heq (fun x hx => (hq x hx).2.1) rfl rfl ?_
      show ((s.lookups.map Lookup.req ++ []) ++ []).Perm (s.lookups.map Lookup.req)
      rw [List.append_nil, List.append_nil]
    · rw [heq, clock_quiet fun x hx => (hq x hx).2.2]; exact hclk e rfl
    · intro k
      rw [heq, (count_quiet (fun x hx => (hq x hx).2.1) k _).2.1]
      exact ho k
  | prepareShutdown p corr ps e =>
    show RInv ((s.emit _).prepareShutdown p corr ps e)
    have hf := base (fun _ _ => rfl) (by simp) e rfl
    have hfr := prepareAll_frame (s.emit (.recv (.prepareShutdown p corr ps e))) ([], [], []) ps
    have hinv := hi'.prepareAll ([], [], []) ps
    have h1 : GInv e ((s.emit (.recv (.prepareShutdown p corr ps e))).prepareAll ([], [], []) ps).1 [] :=
      hf.keeps hinv (es := []) (by rw [hfr]; simp) (by simp) (by rw [hfr]) (by rw [hfr]) (BackS.refl_of_seq (by rw [hfr])) (by rw [hfr])
    have h2 : RInv ((s.emit (.recv (.prepareShutdown p corr ps e))).prepared ps e) := by
      unfold State.prepared
      simp only
      split
      · exact h1.late
      · refine (GInv.again (e := e) (rs := []) _ ?_).late
        refine h1.keeps (es := []) (hinv.same ⟨rfl, rfl, rfl⟩) (by simp) (by simp) rfl rfl (BackS.refl_of_seq rfl) ?_
        rw [List.append_nil, ← List.map_append]
        exact (filter_perm _ _ _ (fun _ => by simp)).map _
    rw [prepareShutdown_eq]
    simp only
    split <;> split
    · exact h2
    · exact h2.keeps rfl (by simp [rquiet_shutdown]) (BackS.refl_of_seq rfl) (fun _ => id)
    · exact h2.keeps (es := []) (by simp) (by simp) (BackS.refl_of_seq rfl) (fun _ => id)
    · exact h2.keeps rfl (by simp [rquiet_shutdown]) (BackS.refl_of_seq rfl) (fun _ => id)
  | alarm e =>
    show RInv ((s.emit _).alarm e)
    have hf := base (fun _ _ => rfl) (by simp) e rfl
    rw [alarm_eq]
    generalize s.emit (.recv (.alarm e)) = u at hf
    have key : RInv ((u.deadlines.takeWhile fun d => decide (d.when_ < e.now)).foldl State.expire (u.alarmPrep e)) := by
      refine RInv.expires e.now (u.deadlines.dropWhile fun d => decide (d.when_ < e.now)) _ (u.alarmPrep e) rfl (hf.inv.same ⟨rfl, rfl, rfl⟩) ?_ (show Alone u.tr from Alone.of hf.book hf.once) hf.time ?_
      · rw [List.takeWhile_append_dropWhile]
        exact hf.late.keeps (es := []) (by simp [State.alarmPrep]) (by simp) (BackS.refl_of_seq rfl) (fun _ => id)
      · intro d hd
        exact mem_takeWhile_lt hd
    split
    · exact key.keeps (es := []) (by simp [State.setTimer]) (by simp) (BackS.refl_of_seq rfl) (fun _ => id)
    · exact key
  | discovered corr e =>
    show RInv ((s.emit _).discovered corr e)
    have hf := base (fun _ _ => rfl) (by simp) e rfl
    rw [discovered_eq]
    split
    · exact hf.late
    · rename_i l hl
      split
      · refine (GInv.lookup (e := e) (rs := []) ?_).late
        refine hf.keeps (es := []) (hi'.same ⟨rfl, rfl, rfl⟩) (by simp) (by simp) rfl rfl (BackS.refl_of_seq rfl) ?_
        exact (eraseP_perm hl).map _
      · split
        · exact hf.late
        · exact hf.late.keeps rfl (by simp [rquiet_absent]) (BackS.refl_of_seq rfl) (fun _ => id)
  | disassociate t => exact (h.recv (.disassociate t) (fun _ _ => rfl)).keeps (es := []) (by simp [State.step, State.handle]) (by simp) (BackS.refl_of_seq rfl) (fun _ => id)
  | undelivered ipc =>
    have hb := h.recv (.undelivered ipc) (fun _ _ => rfl)
    show RInv (match (s.emit (.recv (.undelivered ipc))).seqOf ipc with | some i => (s.emit (.recv (.undelivered ipc))).modifySeq i SeqI.free | none => s.emit (.recv (.undelivered ipc)))
    cases hf : (s.emit (.recv (.undelivered ipc))).seqOf ipc with
    | none => exact hb
    | some i => exact hb.keeps (es := []) (by simp [State.modifySeq]) (by simp) (backS_modify (f := SeqI.free) rfl fun x => ⟨rfl, .inr rfl⟩) (fun _ => id)

theorem RInv.init (c : Config) : RInv (State.init c) :=
  ⟨fun i x c k h => (by rw [show Index.get (State.init _).seq i = none from rfl] at h; cases h), fun _ h => (by cases h), fun _ h => (by cases h), AllGood.nil⟩

theorem RInv.run (c : Config) (is : List In) (ho : ∀ k, asked k ((State.init c).run is).tr ≤ 1) : RInv ((State.init c).run is) := by
  induction is using snocInd with
  | nil => exact RInv.init c
  | snoc is m ih =>
    rw [run_snoc] at ho ⊢
    have hi : Inv ((State.init c).run is) := Inv.run (Inv.init c) is
    obtain ⟨es, he⟩ := step_tr ((State.init c).run is) m hi
    rw [he] at ho
    have hbk : BInv False False ((State.init c).run is) [] := BInv.run (Inv.init c) (BInv.init c) is False.elim
    refine RInv.step hi (ih ?_) hbk m ?_
    · exact fun k => Nat.le_trans (asked_mono k _ _) (ho k)
    · intro k
      refine Nat.le_trans ?_ (ho k)
      rw [show ((State.init c).run is).tr ++ .recv m :: es = (((State.init c).run is).tr ++ [.recv m]) ++ es by simp]
      exact asked_mono k _ _

end Casual.Service
