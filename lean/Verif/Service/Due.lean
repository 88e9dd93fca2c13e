import Verif.Service.Time
import Verif.Service.Serve
/-! The deadline of every call that is served is known. -/
namespace Casual.Service

theorem due_clock (ipc : Nat) (tr : List Ev) : (tr.foldl (dueStep ipc) (none, none)).1 = clock tr := by
  induction tr using snocInd with
  | nil => rfl
  | snoc tr e ih => rw [List.foldl_append, clock_snoc, ← ih]; rfl

theorem due_snoc (ipc : Nat) (tr : List Ev) (e : Ev) : due ipc (tr ++ [e]) = match e with
    | .idle _ .sequential t left => if t.ipc = ipc then (clock tr).bind fun now => left.map fun x => now + x else due ipc tr
    | _ => due ipc tr := by
  unfold due
  rw [List.foldl_append, ← due_clock ipc tr]
  rfl

/-- Not about when a call is due. -/
def DQuiet : Ev → Prop
  | .idle _ k _ _ => k ≠ .sequential
  | _ => True

theorem due_quiet {ipc : Nat} {tr es : List Ev} (h : ∀ e ∈ es, DQuiet e) : due ipc (tr ++ es) = due ipc tr := by
  induction es generalizing tr with
  | nil => simp
  | cons e es ih =>
    rw [show tr ++ e :: es = (tr ++ [e]) ++ es by simp, ih (fun x hx => h x (List.mem_cons_of_mem _ hx)), due_snoc]
    have := h e List.mem_cons_self
    split
    · exact absurd rfl this
    · rfl

theorem served_answers {ipc : Nat} {tr : List Ev} {t c : Proc} {k : Nat} (h : served ipc tr = some (t, c, k)) : 1 ≤ answers k tr := by
  induction tr using snocInd generalizing t c k with
  | nil => cases h
  | snoc tr e ih =>
    rw [served_snoc] at h
    have hmono : answers k tr ≤ answers k (tr ++ [e]) := by unfold answers; rw [List.countP_append]; omega
    have old : served ipc tr = some (t, c, k) → 1 ≤ answers k (tr ++ [e]) := fun h => Nat.le_trans (ih h) hmono
    cases e with
    | recv m => exact old (servedStep_le ipc _ m _ h)
    | idle r kind q left =>
      cases kind with
      | sequential =>
        simp only [servedStep] at h
        split at h
        · split at h
          · cases h
          · simp only [Option.some.injEq, Prod.mk.injEq] at h
            have : isAnswer k (.idle r .sequential q left) = true := by simp [isAnswer, h.2.2]
            unfold answers
            rw [List.countP_append, List.countP_singleton, this]
            simp
        · exact old h
      | concurrent => exact old h
      | forward => exact old h
    | error to corr code =>
      cases corr <;> cases code <;> first | exact old h | exact old (Option.filter_eq_some_iff.mp h).1
    | _ => exact old h

/-- The correlation of an instance was there before. -/
def BackC (s s' : State) : Prop :=
  ∀ i x' k, Index.get s'.seq i = some x' → x'.corr = some k → ∃ x, Index.get s.seq i = some x ∧ x.proc = x'.proc ∧ x.corr = some k

theorem BackC.refl_of_seq {s s' : State} (h : s'.seq = s.seq) : BackC s s' := by
  intro i x k hx hk
  exact ⟨x, by rw [← h]; exact hx, rfl, hk⟩

theorem BackC.trans {s s' s'' : State} (h : BackC s s') (h' : BackC s' s'') : BackC s s'' := by
  intro i x k hx hk
  obtain ⟨y, hy, hp, hc⟩ := h' i x k hx hk
  obtain ⟨z, hz, hp', hc'⟩ := h i y k hy hc
  exact ⟨z, hz, by rw [hp', hp], hc'⟩

def EInv (s : State) : Prop :=
  ∀ ipc t c k dl, served ipc s.tr = some (t, c, k) → due ipc s.tr = some dl → ∀ i x, Index.get s.seq i = some x → x.proc.ipc = ipc → x.corr = some k →
    ∃ d ∈ s.deadlines, d.corr = k ∧ d.service.isSome ∧ d.target = some i ∧ d.when_ = dl

theorem EInv.mono {s s' : State} (h : EInv s) (hs : ∀ ipc t c k, served ipc s'.tr = some (t, c, k) → served ipc s.tr = some (t, c, k))
    (hd : ∀ ipc, due ipc s'.tr = due ipc s.tr) (hb : BackC s s')
    (hdl : ∀ ipc t c d, served ipc s'.tr = some (t, c, d.corr) → d ∈ s.deadlines → d ∈ s'.deadlines) : EInv s' := by
  intro ipc t c k dl h1 h2 i x' h3 h4 h5
  obtain ⟨x, hx, hp, hk⟩ := hb i x' k h3 h5
  rw [hd] at h2
  obtain ⟨d, hd, hk', hrest⟩ := h ipc t c k dl (hs ipc t c k h1) h2 i x hx (by rw [hp]; exact h4) hk
  subst hk'
  exact ⟨d, hdl ipc t c d h1 hd, rfl, hrest⟩

theorem EInv.keeps {s s' : State} (h : EInv s) {es : List Ev} (ht : s'.tr = s.tr ++ es) (hq : ∀ e ∈ es, SQuiet e ∧ DQuiet e) (hb : BackC s s')
    (hdl : ∀ d ∈ s.deadlines, d ∈ s'.deadlines) : EInv s' := by
  refine h.mono ?_ ?_ hb (fun _ _ _ d _ => hdl d)
  · intro ipc t c k; rw [ht, served_quiet fun e he => (hq e he).1]; exact id
  · intro ipc; rw [ht, due_quiet fun e he => (hq e he).2]

/-- Everything, while lookups `rs` are about to be tried again at the time of `e`. -/
structure FInv (e : Env) (s : State) (rs : List Req) : Prop where
  inv : Inv s
  ent : EInv s
  book : BInv False False s rs
  time : clock s.tr = some e.now
  once : ∀ k, asked k s.tr ≤ 1

theorem mem_claim_other {corr v i : Nat} {l : List Entry} {d : Entry} (h : d ∈ l) (hc : d.corr ≠ corr) : d ∈ claimEntry corr v i l := by
  induction l with
  | nil => cases h
  | cons a l ih =>
    unfold claimEntry
    split
    · rename_i ha
      rcases List.mem_cons.mp h with rfl | h
      · exact absurd ha hc
      · exact List.mem_cons_of_mem _ h
    · rcases List.mem_cons.mp h with rfl | h
      · exact List.mem_cons_self
      · exact List.mem_cons_of_mem _ (ih h)

theorem claim_found {corr v i : Nat} {l : List Entry} {d : Entry} (h : l.find? (fun d => d.corr == corr) = some d) :
    { d with service := some v, target := some i } ∈ claimEntry corr v i l := by
  induction l with
  | nil => cases h
  | cons a l ih =>
    rw [List.find?_cons] at h
    unfold claimEntry
    by_cases ha : a.corr = corr
    · rw [if_pos ha]
      rw [show (a.corr == corr) = true by simp [ha]] at h
      cases h
      exact List.mem_cons_self
    · rw [if_neg ha]
      rw [show (a.corr == corr) = false by simp [ha]] at h
      exact List.mem_cons_of_mem _ (ih h)

theorem add_mem (e : Entry) (l : List Entry) : ∀ d, d = e ∨ d ∈ l → d ∈ (addDeadline e l).1 := by
  intro d
  induction l with
  | nil => simp [addDeadline]
  | cons a l ih =>
    unfold addDeadline
    intro h
    split
    · exact List.mem_cons.mpr h
    · rcases h with h | h
      · exact List.mem_cons_of_mem _ (ih (.inl h))
      · rcases List.mem_cons.mp h with rfl | h
        · exact List.mem_cons_self
        · exact List.mem_cons_of_mem _ (ih (.inr h))

theorem FInv.unanswered {e : Env} {s : State} {r : Req} {rs : List Req} (h : FInv e s (r :: rs)) : answers r.corr s.tr = 0 := by
  have h1 := (h.book.count r.corr).1
  have h2 := h.once r.corr
  rw [List.cons_append, List.countP_cons] at h1
  simp only [beq_self_eq_true, if_true] at h1
  omega

theorem FInv.outcome {e : Env} {s s' : State} {r : Req} {rs : List Req} (h : FInv e s (r :: rs)) (o : Outcome s r e s') : FInv e s' rs := by
  refine ⟨h.inv.outcome o, ?_, h.book.outcome False.elim o, ?_, ?_⟩
  · have hz := h.unanswered
    obtain ⟨hi, h, hbk, hc, ho⟩ := h
    cases o with
    | absent => exact h.keeps rfl (by simp [squiet_absent, DQuiet]) (BackC.refl_of_seq rfl) (fun _ => id)
    | discover =>
      rw [discover_eq]
      split
      · exact h.keeps (es := [.discover r.name r.corr]) rfl (by simp [squiet_discover, DQuiet]) (BackC.refl_of_seq rfl) (fun _ => id)
      · refine h.keeps (es := [.discover r.name r.corr, .absent r.proc.ipc r.corr r.name]) ?_ (by simp [squiet_discover, squiet_absent, DQuiet]) (BackC.refl_of_seq rfl) (fun _ => id)
        show (s.tr ++ [_]) ++ [_] = _
        simp
    | forward => exact h.keeps rfl (by intro e he; rw [List.mem_singleton] at he; subst he; exact ⟨fun _ _ => rfl, by simp [DQuiet]⟩) (BackC.refl_of_seq rfl) (fun _ => id)
    | pending v h1 h2 h3 h4 =>
      refine h.keeps (es := []) (by simp) (by simp) (BackC.refl_of_seq rfl) fun d hd => ?_
      show d ∈ pendDl s v r e
      unfold pendDl
      split
      · exact hd
      · split
        · exact add_mem _ _ d (.inr hd)
        · exact hd
    | con => exact h.keeps rfl (by intro e he; rw [List.mem_singleton] at he; subst he; exact ⟨fun _ _ => rfl, by simp [DQuiet]⟩) (BackC.refl_of_seq rfl) (fun _ => id)
    | seq v i x h1 h2 h3 h4 =>
      intro ipc t c k dl hs hd j y hy hyp hyk
      change served ipc (s.tr ++ [_]) = _ at hs
      change due ipc (s.tr ++ [_]) = _ at hd
      rw [due_snoc] at hd
      simp only at hd
      change Index.get (Index.modify s.seq i (SeqI.reserve r v.name)) j = some y at hy
      rw [get_reserve r v.name h3] at hy
      by_cases hip : x.proc.ipc = ipc
      · rw [if_pos hip, hc] at hd
        have hji : j = i := by
          cases hgj : Index.get s.seq j with
          | none => rw [hgj] at hy; cases hy
          | some z =>
            rw [hgj] at hy
            refine hi.seqIpc j i z x hgj h3 ?_
            have : y.proc = z.proc := by
              simp only [Option.map_some, Option.some.injEq] at hy
              rw [← hy]; split <;> rfl
            rw [← this, hyp, hip]
        subst hji
        rw [served_snoc] at hs
        simp only [servedStep, if_pos hip] at hs
        have hk : k = r.corr := by
          split at hs
          · cases hs
          · simp only [Option.some.injEq, Prod.mk.injEq] at hs; exact hs.2.2.symm
        subst hk
        simp only [Option.bind_some] at hd
        show ∃ d ∈ (seqDl s v j r e).1, _
        unfold seqDl at hd ⊢
        split at hd
        · rename_i d hf
          have hdc : d.corr = r.corr := by simpa using List.find?_some hf
          refine ⟨_, claim_found hf, hdc, rfl, rfl, ?_⟩
          simp only [Option.map_some, Option.some.injEq] at hd
          show d.when_ = dl
          have : e.now + (d.when_ - e.now) = d.when_ := by
            show (e.now : Int) + ((d.when_ : Int) - e.now) = d.when_
            rw [Int.add_comm, Int.sub_add_cancel]
          rw [← hd, this]
        · split at hd
          · rename_i t' _
            refine ⟨_, add_mem _ _ _ (.inl rfl), rfl, rfl, rfl, ?_⟩
            simp only [Option.map_some, Option.some.injEq] at hd
            show t' = dl
            have : e.now + (t' - e.now) = t' := by
              show (e.now : Int) + ((t' : Int) - e.now) = t'
              rw [Int.add_comm, Int.sub_add_cancel]
            rw [← hd, this]
          · cases hd
      · rw [if_neg hip] at hd
        rw [served_snoc] at hs
        simp only [servedStep, if_neg hip] at hs
        have hji : j ≠ i := by
          intro e; subst e
          rw [h3] at hy
          simp only [if_true, Option.map_some, Option.some.injEq] at hy
          rw [← hy] at hyp
          exact hip hyp
        have hy' : Index.get s.seq j = some y := by
          cases hgj : Index.get s.seq j with
          | none => rw [hgj] at hy; cases hy
          | some z => rw [hgj] at hy; simpa [hji] using hy
        obtain ⟨d, hdm, hdk, hrest⟩ := h ipc t c k dl hs hd j y hy' hyp hyk
        have hne : d.corr ≠ r.corr := by
          intro he
          have := served_answers hs
          rw [← hdk, he, hz] at this
          omega
        refine ⟨d, ?_, hdk, hrest⟩
        show d ∈ (seqDl s v i r e).1
        unfold seqDl
        split
        · exact mem_claim_other hdm hne
        · split
          · exact add_mem _ _ d (.inr hdm)
          · exact hdm
  · obtain ⟨hi, h, hbk, hc, ho⟩ := h
    cases o with
    | absent => show clock (s.tr ++ [_]) = _; rw [clock_snoc]; exact hc
    | discover =>
      rw [discover_eq]
      split
      · show clock (s.tr ++ [_]) = _; rw [clock_snoc]; exact hc
      · show clock ((s.tr ++ [_]) ++ [_]) = _; rw [clock_snoc, clock_snoc]; exact hc
    | forward => show clock (s.tr ++ [_]) = _; rw [clock_snoc]; exact hc
    | pending => exact hc
    | seq => show clock (s.tr ++ [_]) = _; rw [clock_snoc]; exact hc
    | con => show clock (s.tr ++ [_]) = _; rw [clock_snoc]; exact hc
  · intro k
    have ho := h.once k
    have one : ∀ (tr : List Ev) (a : Ev), noRecv a → asked k (tr ++ [a]) = asked k tr := by
      intro tr a ha
      unfold asked
      rw [List.countP_append, List.countP_singleton]
      cases a <;> first | rfl | exact absurd ha id
    cases o with
    | absent => show asked k (s.tr ++ [_]) ≤ _; rw [one]; exact ho; trivial
    | discover =>
      rw [discover_eq]
      split
      · show asked k (s.tr ++ [_]) ≤ _; rw [one]; exact ho; trivial
      · show asked k ((s.tr ++ [_]) ++ [_]) ≤ _; rw [one, one]; exact ho; trivial; trivial
    | forward => show asked k (s.tr ++ [_]) ≤ _; rw [one]; exact ho; trivial
    | pending => exact ho
    | seq => show asked k (s.tr ++ [_]) ≤ _; rw [one]; exact ho; trivial
    | con => show asked k (s.tr ++ [_]) ≤ _; rw [one]; exact ho; trivial

theorem FInv.lookup {e : Env} {s : State} {r : Req} {rs : List Req} (h : FInv e s (r :: rs)) : FInv e (s.lookup r e) rs :=
  h.outcome (lookup_outcome h.inv r e)

theorem FInv.again {e : Env} {s : State} {rs : List Req} (ls : List Lookup) (h : FInv e s (ls.map (·.req) ++ rs)) : FInv e (s.again ls e) rs := by
  unfold State.again
  induction ls generalizing s with
  | nil => exact h
  | cons l ls ih => exact ih h.lookup

/-- Not about anything that matters here. -/
def FQuiet (e : Ev) : Prop := SQuiet e ∧ DQuiet e ∧ BQuiet e ∧ noRecv e

theorem FInv.keeps {e : Env} {s s' : State} {rs rs' : List Req} (h : FInv e s rs) (hi : Inv s') {es : List Ev} (ht : s'.tr = s.tr ++ es) (hq : ∀ e ∈ es, FQuiet e)
    (hd : s'.deadlines = s.deadlines) (hm : s'.timer = s.timer) (hb : BackC s s') (hl : (rs' ++ s'.lookups.map (·.req)).Perm (rs ++ s.lookups.map (·.req))) : FInv e s' rs' := by
  refine ⟨hi, ?_, h.book.keeps ht (fun x hx => (hq x hx).2.2.1) hd hm hl, ?_, ?_⟩
  · exact h.ent.keeps ht (fun x hx => ⟨(hq x hx).1, (hq x hx).2.1⟩) hb (by rw [hd]; exact fun _ => id)
  · rw [ht, clock_quiet fun x hx => (hq x hx).2.2.2]; exact h.time
  · intro k
    rw [ht, (count_quiet (fun x hx => (hq x hx).2.2.1) k s.tr).2.1]
    exact h.once k

theorem FInv.takePending {e : Env} {s : State} (h : FInv e s []) (i : Nat) : FInv e (s.takePending i e) [] := by
  rw [takePending_eq]
  split
  · rename_i l hl
    refine FInv.lookup ?_
    exact h.keeps (h.inv.same ⟨rfl, rfl, rfl⟩) (es := []) (by simp) (by simp) rfl rfl (BackC.refl_of_seq rfl) ((eraseP_perm hl).map _)
  · exact h

theorem fquiet_shutdown (a b : Nat) (c : List Proc) : FQuiet (.shutdown a b c) := ⟨squiet_shutdown _ _ _, trivial, bquiet_shutdown _ _ _, trivial⟩
theorem fquiet_rollback (a : Nat) : FQuiet (.rollback a) := ⟨squiet_rollback _, trivial, bquiet_rollback _, trivial⟩
theorem fquiet_serviceError (a : Nat) (b : Option Nat) : FQuiet (.error a b .serviceError) := ⟨squiet_error _ _, trivial, bquiet_error _ _ _, trivial⟩

theorem backC_modify {s s' : State} {i : Nat} {f : SeqI → SeqI} (hq : s'.seq = Index.modify s.seq i f) (hf : ∀ x, (f x).proc = x.proc ∧ ((f x).corr = x.corr ∨ (f x).corr = none)) : BackC s s' := by
  intro j x' k hx hk
  rw [hq, Index.get_modify] at hx
  split at hx
  · rename_i e; subst e
    cases hg : Index.get s.seq j with
    | none => rw [hg] at hx; cases hx
    | some x =>
      rw [hg] at hx
      simp only [Option.map_some, Option.some.injEq] at hx
      subst hx
      refine ⟨x, rfl, (hf x).1.symm, ?_⟩
      rcases (hf x).2 with h | h
      · rw [← h]; exact hk
      · rw [h] at hk; cases hk
  · exact ⟨x', hx, rfl, hk⟩

theorem backC_seqFor (s : State) (p : Proc) (alias : Nat) : BackC s (s.seqFor p alias).2 := by
  intro i x' k hx hk
  rcases seqFor_spec (s := s) p alias with ⟨y, -, hy, -, hg⟩ | ⟨-, hy, hg⟩
  · rw [hg] at hx
    split at hx
    · rename_i e; subst e; cases hx; exact ⟨y, hy, rfl, hk⟩
    · exact ⟨x', hx, rfl, hk⟩
  · rw [hg] at hx
    split at hx
    · cases hx; cases hk
    · exact ⟨x', hx, rfl, hk⟩

theorem backC_addSeqServices (i : Nat) (s : State) (add : List Nat) : BackC s (add.foldl (State.addSeqService i) s) := by
  induction add generalizing s with
  | nil => exact BackC.refl_of_seq rfl
  | cons n add ih =>
    refine BackC.trans ?_ (ih _)
    rw [addSeqService_eq]
    exact backC_modify rfl fun x => ⟨rfl, .inl rfl⟩

theorem backC_without (s : State) (p : Proc → Bool) : BackC s (s.without p) := by
  intro i x' k hx hk
  rw [without_seq] at hx
  split at hx
  · cases hx
  · exact ⟨x', hx, rfl, hk⟩

theorem backC_discard (corr : Nat) {s s' : State} (hq : s'.seq = s.seq.map fun o => o.map (SeqI.discardCorr corr)) : BackC s s' := by
  intro i x' k hx hk
  rw [hq, Index.get_map] at hx
  cases hg : Index.get s.seq i with
  | none => rw [hg] at hx; cases hx
  | some x =>
    rw [hg] at hx
    simp only [Option.map_some, Option.some.injEq] at hx
    subst hx
    unfold SeqI.discardCorr at hk ⊢
    split at hk
    · cases hk
    · rename_i hne
      rw [if_neg hne]
      exact ⟨x, rfl, rfl, hk⟩

theorem mem_remove_other {corr : Nat} {l : List Entry} {d : Entry} (h : d ∈ l) (hc : d.corr ≠ corr) : d ∈ (removeDeadline corr l).1 := by
  unfold removeDeadline
  split
  · cases h
  · split
    · rename_i a l' ha
      rcases List.mem_cons.mp h with rfl | h
      · exact absurd ha hc
      · split
        · cases h
        · exact h
    · rename_i a l' ha
      rcases List.mem_cons.mp h with rfl | h
      · exact List.mem_cons_self
      · exact List.mem_cons_of_mem _ ((List.mem_eraseP_of_neg (by simp [hc])).mpr h)

theorem backC_expire (t : State) (d : Entry) : BackC t (t.expire d) := by
  have := expire_cases t d
  generalize t.expire d = t' at this
  cases this with
  | nothing => exact BackC.refl_of_seq rfl
  | lookup l _ => exact BackC.refl_of_seq rfl
  | noCaller => exact backC_modify rfl fun x => ⟨rfl, .inr rfl⟩
  | caller => exact backC_modify rfl fun x => ⟨rfl, .inr rfl⟩

theorem expire_frame (t : State) (d : Entry) : (t.expire d).deadlines = t.deadlines ∧ (∀ l ∈ (t.expire d).lookups, l ∈ t.lookups) ∧
    ∃ es, (t.expire d).tr = t.tr ++ es ∧ ∀ e ∈ es, (∃ a b, e = .timedOut a b) ∨ (∃ a b, e = .error a (some b) .timeout) ∨ ∃ a, e = .assassinate a := by
  have := expire_cases t d
  generalize t.expire d = t' at this
  cases this with
  | nothing => exact ⟨rfl, fun _ => id, [], by simp, by simp⟩
  | lookup l _ => exact ⟨rfl, fun _ hl => List.eraseP_sublist.subset hl, _, rfl, by simp⟩
  | noCaller => exact ⟨rfl, fun _ => id, [], by simp, by simp⟩
  | caller => exact ⟨rfl, fun _ => id, _, rfl, by simp⟩

theorem expires_frame (ds : List Entry) (t : State) : (ds.foldl State.expire t).deadlines = t.deadlines ∧ (∀ l ∈ (ds.foldl State.expire t).lookups, l ∈ t.lookups) ∧ BackC t (ds.foldl State.expire t) ∧
    ∃ es, (ds.foldl State.expire t).tr = t.tr ++ es ∧ ∀ e ∈ es, (∃ a b, e = .timedOut a b) ∨ (∃ a b, e = .error a (some b) .timeout) ∨ ∃ a, e = .assassinate a := by
  induction ds generalizing t with
  | nil => exact ⟨rfl, fun _ => id, BackC.refl_of_seq rfl, [], by simp, by simp⟩
  | cons d ds ih =>
    obtain ⟨h1, h2, h3, es, h4, h5⟩ := ih (t.expire d)
    obtain ⟨g1, g2, es', g4, g5⟩ := expire_frame t d
    rw [List.foldl_cons]
    refine ⟨by rw [h1, g1], fun l hl => g2 l (h2 l hl), (backC_expire t d).trans h3, es' ++ es, by rw [h4, g4, List.append_assoc], fun e he => ?_⟩
    rcases List.mem_append.mp he with he | he
    · exact g5 e he
    · exact h5 e he

/-- The expiry of the deadline of a call that an instance serves. -/
theorem expire_fires {t : State} {d : Entry} {i : Nat} {x : SeqI} (hl : ∀ l ∈ t.lookups, l.req.corr ≠ d.corr) (hs : d.service.isSome) (ht : d.target = some i)
    (hx : Index.get t.seq i = some x) (hc : x.corr = some d.corr) : Index.get (t.expire d).seq i = some { x with caller := none, corr := none } ∧
    ∀ c, x.caller = some c → (t.expire d).tr = t.tr ++ [.error c.ipc (some d.corr) .timeout, .assassinate x.proc.pid] := by
  obtain ⟨n, hn⟩ := Option.isSome_iff_exists.mp hs
  have hf : t.lookups.find? (fun l => l.req.corr == d.corr) = none := by
    rw [List.find?_eq_none]
    intro l hm; simpa using hl l hm
  unfold State.expire
  simp only [hf, hn, ht, hx, hc, if_true]
  cases hcl : x.caller with
  | none =>
    refine ⟨?_, fun c hc => by cases hc⟩
    show Index.get (Index.modify t.seq i _) i = _
    rw [Index.get_modify, if_pos rfl, hx]; rfl
  | some c =>
    simp only
    refine ⟨?_, fun c' hc' => ?_⟩
    · have : Index.get (Index.modify t.seq i fun x => { x with caller := none, corr := none }) i = some { x with caller := none, corr := none } := by
        rw [Index.get_modify, if_pos rfl, hx]; rfl
      cases hfat : (State.emit { t.modifySeq i (fun x => { x with caller := none, corr := none }) with timeoutInst := (t.modifySeq i fun x => { x with caller := none, corr := none }).timeoutInst ++ [x.proc.pid] } (.error c.ipc (some d.corr) .timeout)).fatal <;> exact this
    · cases hc'
      cases hfat : (State.emit { t.modifySeq i (fun x => { x with caller := none, corr := none }) with timeoutInst := (t.modifySeq i fun x => { x with caller := none, corr := none }).timeoutInst ++ [x.proc.pid] } (.error c.ipc (some d.corr) .timeout)).fatal <;> simp [State.emit, State.modifySeq]

/-- An instance without an expired deadline for its call goes on. -/
theorem expires_fired {ds : List Entry} {t : State} {d : Entry} {i : Nat} (hd : d ∈ ds) (hl : ∀ l ∈ t.lookups, l.req.corr ≠ d.corr) (hs : d.service.isSome) (ht : d.target = some i)
    {x : SeqI} (hx : Index.get (ds.foldl State.expire t).seq i = some x) : x.corr ≠ some d.corr := by
  intro hc
  obtain ⟨ds1, ds2, rfl⟩ := List.append_of_mem hd
  rw [List.foldl_append, List.foldl_cons] at hx
  obtain ⟨h1, h2, h3, -⟩ := expires_frame ds1 t
  obtain ⟨g1, g2, g3, -⟩ := expires_frame ds2 ((ds1.foldl State.expire t).expire d)
  obtain ⟨y, hy, hyp, hyc⟩ := g3 i x _ hx hc
  obtain ⟨z, hz, hzp, hzc⟩ := backC_expire _ d i y _ hy hyc
  have := (expire_fires (t := ds1.foldl State.expire t) (fun l hm => hl l (h2 l hm)) hs ht hz hzc).1
  rw [this] at hy
  cases hy
  cases hyc

/-- Those entries that have expired. -/
theorem mem_expired {now : Time} {l : List Entry} (h : InOrder l) {d : Entry} (hd : d ∈ l) (hlt : d.when_ < now) : d ∈ l.takeWhile fun d => decide (d.when_ < now) := by
  induction l with
  | nil => cases hd
  | cons a l ih =>
    obtain ⟨h1, h2⟩ := List.pairwise_cons.mp h
    have ha : a.when_ < now := by
      rcases List.mem_cons.mp hd with rfl | hd
      · exact hlt
      · exact Int.lt_of_le_of_lt (h1 d hd) hlt
    rw [List.takeWhile_cons_of_pos (by simpa using ha)]
    rcases List.mem_cons.mp hd with rfl | hd
    · exact List.mem_cons_self
    · exact List.mem_cons_of_mem _ (ih h2 hd)

theorem mem_unexpired {now : Time} {l : List Entry} {d : Entry} (hd : d ∈ l) (hlt : ¬ d.when_ < now) : d ∈ l.dropWhile fun d => decide (d.when_ < now) := by
  induction l with
  | nil => cases hd
  | cons a l ih =>
    rw [List.dropWhile_cons]
    split
    · rename_i ha
      rcases List.mem_cons.mp hd with rfl | hd
      · exact absurd (by simpa using ha) hlt
      · exact ih hd
    · exact hd

theorem nobody_waits {s : State} (hbk : BInv False False s []) (ho : ∀ k, asked k s.tr ≤ 1) {ipc : Nat} {t c : Proc} {k : Nat} (hs : served ipc s.tr = some (t, c, k)) :
    ∀ l ∈ s.lookups, l.req.corr ≠ k := by
  intro l hl he
  have h1 := served_answers hs
  have h2 := (hbk.count k).1
  have h3 := ho k
  have h4 : 0 < ([] ++ s.lookups.map fun x : Lookup => x.req).countP (fun r : Req => r.corr == k) := by
    rw [List.countP_pos_iff]
    exact ⟨l.req, List.mem_map.mpr ⟨l, hl, rfl⟩, by simp [he]⟩
  omega

theorem EInv.alarm {s : State} (h : EInv s) (hbk : BInv False False s []) (e : Env) (ho : ∀ k, asked k (s.tr ++ [.recv (.alarm e)]) ≤ 1) : EInv (s.step (.alarm e)) := by
  have hbk' := hbk.recv (.alarm e) (by simp)
  have hb : EInv (s.emit (.recv (.alarm e))) := by
    refine h.mono ?_ ?_ (BackC.refl_of_seq rfl) (fun _ _ _ _ _ => id)
    · intro ipc t c k hs
      change served ipc (s.tr ++ [_]) = _ at hs
      rw [served_snoc] at hs
      exact servedStep_le _ _ _ _ hs
    · intro ipc
      show due ipc (s.tr ++ [_]) = _
      rw [due_snoc]
  show EInv ((s.emit (.recv (.alarm e))).alarm e)
  have ho' : ∀ k, asked k (s.emit (.recv (.alarm e))).tr ≤ 1 := ho
  generalize s.emit (.recv (.alarm e)) = u at hb hbk' ho'
  rw [alarm_eq]
  have key : EInv ((u.deadlines.takeWhile fun d => decide (d.when_ < e.now)).foldl State.expire (u.alarmPrep e)) := by
    obtain ⟨f1, f2, f3, es, f4, f5⟩ := expires_frame (u.deadlines.takeWhile fun d => decide (d.when_ < e.now)) (u.alarmPrep e)
    have hdue : ∀ ipc, due ipc ((u.deadlines.takeWhile fun d => decide (d.when_ < e.now)).foldl State.expire (u.alarmPrep e)).tr = due ipc u.tr := by
      intro ipc
      rw [f4]
      refine due_quiet fun x hx => ?_
      rcases f5 x hx with ⟨a, b, rfl⟩ | ⟨a, b, rfl⟩ | ⟨a, rfl⟩ <;> trivial
    have hser : ∀ ipc y, served ipc ((u.deadlines.takeWhile fun d => decide (d.when_ < e.now)).foldl State.expire (u.alarmPrep e)).tr = some y → served ipc u.tr = some y := by
      intro ipc y
      rw [f4]
      show served ipc (u.tr ++ es) = some y → _
      clear f4
      induction es using snocInd with
      | nil => simp
      | snoc es x ih =>
        intro hy
        rw [← List.append_assoc, served_snoc] at hy
        refine ih (fun x hx => f5 x (List.mem_append_left _ hx)) ?_
        rcases f5 x (List.mem_append_right _ List.mem_cons_self) with ⟨a, b, rfl⟩ | ⟨a, b, rfl⟩ | ⟨a, rfl⟩
        · exact hy
        · exact (Option.filter_eq_some_iff.mp hy).1
        · exact hy
    intro ipc t c k dl hs hd i x hx hxp hxk
    obtain ⟨y, hy, hyp, hyk⟩ := f3 i x k hx hxk
    have hs' := hser ipc _ hs
    rw [hdue] at hd
    obtain ⟨d, hdm, hdk, hds, hdt, hdw⟩ := hb ipc t c k dl hs' hd i y hy (by rw [hyp]; exact hxp) hyk
    by_cases hlt : d.when_ < e.now
    · refine absurd (by rw [hdk]; exact hxk) (expires_fired (mem_expired hbk'.order hdm hlt) ?_ hds hdt hx)
      rw [hdk]
      exact nobody_waits hbk' ho' hs'
    · refine ⟨d, ?_, hdk, hds, hdt, hdw⟩
      rw [f1]
      exact mem_unexpired hdm hlt
  split
  · exact key.keeps (es := []) (by simp [State.setTimer]) (by simp) (BackC.refl_of_seq rfl) (fun _ => id)
  · exact key

theorem EInv.step {s : State} (hi : Inv s) (h : EInv s) (hbk : BInv False False s []) (m : In) (ho : ∀ k, asked k (s.tr ++ [.recv m]) ≤ 1) (hh : HonestAck s.tr (.recv m)) : EInv (s.step m) := by
  have hi' : Inv (s.emit (.recv m)) := hi.same ⟨rfl, rfl, rfl⟩
  have hb : EInv (s.emit (.recv m)) := by
    refine h.mono ?_ ?_ (BackC.refl_of_seq rfl) (fun _ _ _ _ _ => id)
    · intro ipc t c k hs
      change served ipc (s.tr ++ [_]) = _ at hs
      rw [served_snoc] at hs
      exact servedStep_le _ _ _ _ hs
    · intro ipc
      show due ipc (s.tr ++ [_]) = _
      rw [due_snoc]
  have hclk : ∀ e : Env, m.time = some e.now → clock (s.emit (.recv m)).tr = some e.now := by
    intro e he
    show clock (s.tr ++ [.recv m]) = _
    rw [clock_snoc]
    show m.time.or _ = _
    rw [he]; rfl
  have base : (∀ r e, m ≠ .lookup r e) → ∀ e : Env, m.time = some e.now → FInv e (s.emit (.recv m)) [] := fun hl e he => ⟨hi', hb, hbk.recv m hl, hclk e he, ho⟩
  cases m with
  | lookup r e => exact (FInv.lookup (e := e) (rs := []) ⟨hi', hb, hbk.ask e False.elim, hclk e rfl, ho⟩).ent
  | advertise p alias add remove e =>
    show EInv ((s.emit _).advertise p alias add remove e)
    have hf := base (by simp) e rfl
    rw [advertise_eq]
    split
    · rw [remove_eq hi']
      exact hb.keeps (es := []) (by simp [State.without]) (by simp) (backC_without _ _) (fun _ => id)
    · have hfr := seqFor_eq (s.emit (.recv (.advertise p alias add remove e))) p alias
      have hsi := seqFor_isSome (s.emit (.recv (.advertise p alias add remove e))) p alias
      have hsf := hi'.seqFor p alias
      have hbc := backC_seqFor (s.emit (.recv (.advertise p alias add remove e))) p alias
      generalize (s.emit (.recv (.advertise p alias add remove e))).seqFor p alias = r at hfr hsi hsf hbc ⊢
      obtain ⟨i, t⟩ := r
      dsimp only at hfr hsi hsf hbc ⊢
      split
      · exact hb.keeps (es := []) (by rw [hfr]; simp) (by simp) hbc (by rw [hfr]; exact fun _ => id)
      · have hfr2 := addSeqServices_frame i t (add.filter fun n => (s.emit (.recv (.advertise p alias add remove e))).allowed alias n)
        have hbc2 := backC_addSeqServices i t (add.filter fun n => (s.emit (.recv (.advertise p alias add remove e))).allowed alias n)
        have hui := (hsf.addSeqServices hsi (add.filter fun n => (s.emit (.recv (.advertise p alias add remove e))).allowed alias n)).removeSeqServices i remove
        generalize (add.filter fun n => (s.emit (.recv (.advertise p alias add remove e))).allowed alias n).foldl (State.addSeqService i) t = u at hfr2 hbc2 hui ⊢
        refine (FInv.takePending (e := e) (hf.keeps (es := []) hui ?_ (by simp) ?_ ?_ ?_ ?_) _).ent
        · show u.tr = _
          rw [hfr2, hfr]; simp
        · show u.deadlines = _
          rw [hfr2, hfr]
        · show u.timer = _
          rw [hfr2, hfr]
        · exact hbc.trans (hbc2.trans (backC_modify (i := i) rfl fun _ => ⟨rfl, .inl rfl⟩))
        · show ([] ++ u.lookups.map _).Perm _
          rw [hfr2, hfr]
  | cadvertise p alias order add remove e =>
    show EInv ((s.emit _).cadvertise p alias order add remove e)
    have hf := base (by simp) e rfl
    rw [cadvertise_eq, takeReady_eq]
    have hcf := conFor_eq (s.emit (.recv (.cadvertise p alias order add remove e))) p alias order
    have hinv := hi'.conFor p alias order
    have hsome := conFor_isSome (s.emit (.recv (.cadvertise p alias order add remove e))) p alias order
    generalize (s.emit (.recv (.cadvertise p alias order add remove e))).conFor p alias order = r at hcf hinv hsome ⊢
    obtain ⟨i, t⟩ := r
    dsimp only at hcf hinv hsome ⊢
    have hfr := addConServices_frame i order t (add.filter fun n => (s.emit (.recv (.cadvertise p alias order add remove e))).allowed alias n.1)
    have hinv2 := (hinv.addConServices hsome order (add.filter fun n => (s.emit (.recv (.cadvertise p alias order add remove e))).allowed alias n.1)).removeConServices i remove
    generalize (add.filter fun n => (s.emit (.recv (.cadvertise p alias order add remove e))).allowed alias n.1).foldl (State.addConService i order) t = u at hfr hinv2 ⊢
    have hb2 : FInv e (u.removeConServices i remove) [] := by
      refine hf.keeps (es := []) hinv2 ?_ (by simp) ?_ ?_ ?_ ?_
      · show u.tr = _
        rw [hfr, hcf]; simp
      · show u.deadlines = _
        rw [hfr, hcf]
      · show u.timer = _
        rw [hfr, hcf]
      · refine BackC.refl_of_seq ?_
        show u.seq = _
        rw [hfr, hcf]
      · show ([] ++ u.lookups.map _).Perm _
        rw [hfr, hcf]
    generalize u.removeConServices i remove = w at hb2 hinv2 ⊢
    refine (FInv.again (e := e) (rs := []) _ ?_).ent
    refine hb2.keeps (es := []) (hinv2.same ⟨rfl, rfl, rfl⟩) (by simp) (by simp) rfl rfl (BackC.refl_of_seq rfl) ?_
    rw [List.append_nil, ← List.map_append]
    exact (filter_perm w.lookups w.ready (fun l => !w.ready l) (fun _ => rfl)).map _
  | creset p =>
    show EInv ((s.emit _).remove _).1
    rw [remove_eq hi']
    exact hb.keeps (es := []) (by simp [State.without]) (by simp) (backC_without _ _) (fun _ => id)
  | cinstance p alias order =>
    show EInv ((s.emit _).cinstance p alias order)
    unfold State.cinstance
    split
    · exact hb
    · exact hb.keeps (es := []) (by simp) (by simp) (BackC.refl_of_seq rfl) (fun _ => id)
  | discard p corr reply =>
    show EInv ((s.emit _).discard p corr reply)
    rw [discard_eq]
    split
    · exact hb.keeps (es := if reply then [.discarded p.ipc corr true] else []) rfl (by cases reply <;> simp [squiet_discarded, DQuiet]) (BackC.refl_of_seq rfl) (fun _ => id)
    · exact hb.keeps (es := if reply then [.discarded p.ipc corr false] else []) rfl (by cases reply <;> simp [squiet_discarded, DQuiet]) (backC_discard corr rfl) (fun _ => id)
  | ack p corr trid e =>
    show EInv ((s.emit _).ack p corr trid e)
    have hf := base (by simp) e rfl
    rw [ack_eq]
    obtain ⟨es, ht, hq⟩ := ackPrep_tr (s.emit (.recv (.ack p corr trid e))) p corr trid e
    have hs := ackPrep_same (s.emit (.recv (.ack p corr trid e))) p corr trid e
    obtain ⟨hl, hd, hmt⟩ := ackPrep_lookups (s.emit (.recv (.ack p corr trid e))) p corr trid e
    have hpi := hi'.same hs
    have hq' : ∀ x ∈ es, FQuiet x := fun x hx => by obtain ⟨y, rfl⟩ := hq x hx; exact fquiet_rollback y
    generalize (s.emit (.recv (.ack p corr trid e))).ackPrep p corr trid e = t at ht hs hpi hl hd hmt
    have hte : EInv t := by
      refine hb.mono ?_ ?_ (BackC.refl_of_seq hs.seq) ?_
      · intro ipc a c k; rw [ht, served_quiet fun x hx => (hq' x hx).1]; exact id
      · intro ipc; rw [ht, due_quiet fun x hx => (hq' x hx).2.1]
      · intro ipc a c d hsd hdm
        rw [hd]
        refine mem_remove_other hdm fun hc => ?_
        rw [ht, served_quiet fun x hx => (hq' x hx).1] at hsd
        change served ipc (s.tr ++ [_]) = _ at hsd
        rw [served_snoc] at hsd
        have hold := servedStep_le _ _ _ _ hsd
        rw [hc] at hold
        have hip := hh ipc a c hold
        simp only [servedStep, hip, if_true] at hsd
        cases hsd
    have htf : FInv e t [] := by
      refine ⟨hpi, hte, ?_, ?_, ?_⟩
      · obtain ⟨h1, h2, h3, h4, h5, h6⟩ := hf.book
        have h0 : BInv False False { s.emit (.recv (.ack p corr trid e)) with deadlines := t.deadlines, timer := t.timer } [] :=
          ⟨by rw [hd]; exact (inOrder_remove corr h1).1, False.elim, h3, h4, h5, h6⟩
        refine h0.keeps (es := es) ht (fun x hx => (hq' x hx).2.2.1) rfl rfl ?_
        rw [hl]
      · rw [ht, clock_quiet fun x hx => (hq' x hx).2.2.2]; exact hf.time
      · intro k
        rw [ht, (count_quiet (fun x hx => (hq' x hx).2.2.1) k _).2.1]
        exact hf.once k
    split
    · exact hte
    · split
      · refine hte.keeps (es := (ackShutdown p corr t.shutdowns).2) rfl ?_ (backC_modify (f := SeqI.free) rfl fun x => ⟨rfl, .inr rfl⟩) (fun _ => id)
        intro x hx
        obtain ⟨a, b, c, rfl⟩ := ackShutdown_shutdown x hx; exact ⟨squiet_shutdown a b c, trivial⟩
      · refine (FInv.takePending (e := e) ?_ _).ent
        refine htf.keeps ?_ (es := []) (by simp [State.modifySeq]) (by simp) rfl rfl (backC_modify (f := SeqI.free) rfl fun x => ⟨rfl, .inr rfl⟩) (List.Perm.refl _)
        exact hpi.free _ rfl rfl rfl
  | exit pid e =>
    show EInv ((s.emit _).exit pid e)
    have hf := base (by simp) e rfl
    rw [exit_eq hi']
    refine (FInv.again (e := e) (rs := []) _ ?_).ent
    refine hf.keeps ?_ (es := (failShutdown pid s.shutdowns).2 ++ (s.callers (s.seqIds fun q => q.pid == pid)).map fun c => Ev.error c.1.ipc c.2 .serviceError) ?_ ?_ rfl rfl ?_ ?_
    · exact (hi'.without fun q => q.pid == pid).same ⟨rfl, rfl, rfl⟩
    · show ((s.tr ++ [_]) ++ _) ++ _ = _
      rw [List.append_assoc]; rfl
    · intro x hx
      rcases List.mem_append.mp hx with hx | hx
      · obtain ⟨a, b, c, rfl⟩ := failShutdown_shutdown x hx; exact fquiet_shutdown a b c
      · obtain ⟨c, -, rfl⟩ := List.mem_map.mp hx; exact fquiet_serviceError _ _
    · exact (backC_without (s.emit (.recv (.exit pid e))) fun q => q.pid == pid).trans (BackC.refl_of_seq rfl)
    · show ((s.lookups.map Lookup.req ++ []) ++ []).Perm (s.lookups.map Lookup.req)
      rw [List.append_nil, List.append_nil]
  | prepareShutdown p corr ps e =>
    show EInv ((s.emit _).prepareShutdown p corr ps e)
    have hf := base (by simp) e rfl
    have hfr := prepareAll_frame (s.emit (.recv (.prepareShutdown p corr ps e))) ([], [], []) ps
    have hinv := hi'.prepareAll ([], [], []) ps
    have h1 : FInv e ((s.emit (.recv (.prepareShutdown p corr ps e))).prepareAll ([], [], []) ps).1 [] :=
      hf.keeps hinv (es := []) (by rw [hfr]; simp) (by simp) (by rw [hfr]) (by rw [hfr]) (BackC.refl_of_seq (by rw [hfr])) (by rw [hfr])
    have h2 : EInv ((s.emit (.recv (.prepareShutdown p corr ps e))).prepared ps e) := by
      unfold State.prepared
      simp only
      split
      · exact h1.ent
      · refine (FInv.again (e := e) (rs := []) _ ?_).ent
        refine h1.keeps (es := []) (hinv.same ⟨rfl, rfl, rfl⟩) (by simp) (by simp) rfl rfl (BackC.refl_of_seq rfl) ?_
        rw [List.append_nil, ← List.map_append]
        exact (filter_perm _ _ _ (fun _ => by simp)).map _
    rw [prepareShutdown_eq]
    simp only
    split <;> split
    · exact h2
    · exact h2.keeps rfl (by simp [squiet_shutdown, DQuiet]) (BackC.refl_of_seq rfl) (fun _ => id)
    · exact h2.keeps (es := []) (by simp) (by simp) (BackC.refl_of_seq rfl) (fun _ => id)
    · exact h2.keeps rfl (by simp [squiet_shutdown, DQuiet]) (BackC.refl_of_seq rfl) (fun _ => id)
  | alarm e => exact EInv.alarm h hbk e ho
  | discovered corr e =>
    show EInv ((s.emit _).discovered corr e)
    have hf := base (by simp) e rfl
    rw [discovered_eq]
    split
    · exact hb
    · rename_i l hl
      split
      · refine (FInv.lookup (e := e) (rs := []) ?_).ent
        refine hf.keeps (es := []) (hi'.same ⟨rfl, rfl, rfl⟩) (by simp) (by simp) rfl rfl (BackC.refl_of_seq rfl) ?_
        exact (eraseP_perm hl).map _
      · split
        · exact hb
        · exact hb.keeps rfl (by simp [squiet_absent, DQuiet]) (BackC.refl_of_seq rfl) (fun _ => id)
  | disassociate t => exact hb.keeps (es := []) (by simp [State.step, State.handle]) (by simp) (BackC.refl_of_seq rfl) (fun _ => id)
  | undelivered ipc =>
    show EInv (match (s.emit (.recv (.undelivered ipc))).seqOf ipc with | some i => (s.emit (.recv (.undelivered ipc))).modifySeq i SeqI.free | none => s.emit (.recv (.undelivered ipc)))
    cases hf : (s.emit (.recv (.undelivered ipc))).seqOf ipc with
    | none => exact hb
    | some i => exact hb.keeps (es := []) (by simp [State.modifySeq]) (by simp) (backC_modify (f := SeqI.free) rfl fun x => ⟨rfl, .inr rfl⟩) (fun _ => id)

theorem EInv.init (c : Config) : EInv (State.init c) := fun ipc t c k dl h => by cases h

theorem At.mono {tr es a : List Ev} {e : Ev} (h : At tr a e) : At (tr ++ es) a e := by
  obtain ⟨b, rfl⟩ := h
  exact ⟨b ++ es, by simp⟩

theorem step_tr (s : State) (m : In) (hi : Inv s) : ∃ es, (s.step m).tr = s.tr ++ .recv m :: es := by
  have hi' : Inv (s.emit (.recv m)) := hi.same ⟨rfl, rfl, rfl⟩
  obtain ⟨es, he⟩ := (Conf.handle hi' m).tr
  exact ⟨es, by show ((s.emit (.recv m)).handle m).tr = _; rw [he]; show (s.tr ++ [_]) ++ es = _; simp⟩

theorem asked_mono (k : Nat) (tr es : List Ev) : asked k tr ≤ asked k (tr ++ es) := by
  unfold asked; rw [List.countP_append]; omega

/-- Everything holds, if correlations are not used again and acknowledgements are honest. -/
theorem EInv.run (c : Config) (is : List In) (ho : ∀ k, asked k ((State.init c).run is).tr ≤ 1) (hh : AllGood HonestAck ((State.init c).run is).tr) : EInv ((State.init c).run is) := by
  induction is using snocInd with
  | nil => exact EInv.init c
  | snoc is m ih =>
    rw [run_snoc] at ho hh ⊢
    have hi : Inv ((State.init c).run is) := Inv.run (Inv.init c) is
    obtain ⟨es, he⟩ := step_tr ((State.init c).run is) m hi
    rw [he] at ho hh
    have hbk : BInv False False ((State.init c).run is) [] := BInv.run (Inv.init c) (BInv.init c) is False.elim
    refine EInv.step hi (ih ?_ ?_) hbk m ?_ ?_
    · exact fun k => Nat.le_trans (asked_mono k _ _) (ho k)
    · exact fun a e h => hh a e h.mono
    · intro k
      refine Nat.le_trans ?_ (ho k)
      rw [show ((State.init c).run is).tr ++ .recv m :: es = (((State.init c).run is).tr ++ [.recv m]) ++ es by simp]
      exact asked_mono k _ _
    · exact hh _ _ ⟨es, rfl⟩

/-- Somewhere among the expired deadlines is the one of the call. -/
theorem expires_told {d : Entry} {i : Nat} {c : Proc} (hs : d.service.isSome) (ht : d.target = some i) (ds : List Entry) (t : State) (x : SeqI) (hd : d ∈ ds)
    (hl : ∀ l ∈ t.lookups, l.req.corr ≠ d.corr) (hx : Index.get t.seq i = some x) (hxc : x.corr = some d.corr) (hc : x.caller = some c) :
    ∃ es, (ds.foldl State.expire t).tr = t.tr ++ es ∧ .error c.ipc (some d.corr) .timeout ∈ es ∧ .assassinate x.proc.pid ∈ es := by
  induction ds generalizing t with
  | nil => cases hd
  | cons d' ds ih =>
    rw [List.foldl_cons]
    obtain ⟨-, f2, es', f4, -⟩ := expire_frame t d'
    by_cases hfire : Index.get (t.expire d').seq i = some x
    · have hd' : d ∈ ds := by
        rcases List.mem_cons.mp hd with rfl | hd
        · rw [(expire_fires hl hs ht hx hxc).1] at hfire
          simp only [Option.some.injEq] at hfire
          rw [← hfire] at hxc
          cases hxc
        · exact hd
      obtain ⟨es, h1, h2, h3⟩ := ih (t.expire d') hd' (fun l hm => hl l (f2 l hm)) hfire
      exact ⟨es' ++ es, by rw [h1, f4, List.append_assoc], List.mem_append_right _ h2, List.mem_append_right _ h3⟩
    · obtain ⟨-, -, -, es, g4, -⟩ := expires_frame ds (t.expire d')
      have : ∃ es, (t.expire d').tr = t.tr ++ es ∧ .error c.ipc (some d.corr) .timeout ∈ es ∧ .assassinate x.proc.pid ∈ es := by
        have := expire_cases t d'
        generalize t.expire d' = t' at this hfire
        cases this with
        | nothing => exact absurd hx hfire
        | lookup l _ => exact absurd hx hfire
        | noCaller _ j y h1 h2 h3 h4 =>
          change ¬ Index.get (Index.modify t.seq j _) i = _ at hfire
          rw [Index.get_modify] at hfire
          split at hfire
          · subst ‹i = j›
            rw [hx] at h2; cases h2
            rw [h4] at hc; cases hc
          · exact absurd hx hfire
        | caller _ j y c' h1 h2 h3 h4 =>
          change ¬ Index.get (Index.modify t.seq j _) i = _ at hfire
          rw [Index.get_modify] at hfire
          split at hfire
          · subst ‹i = j›
            rw [hx] at h2; cases h2
            rw [h4] at hc; cases hc
            rw [hxc] at h3
            simp only [Option.some.injEq] at h3
            exact ⟨_, rfl, by simp [h3], by simp⟩
          · exact absurd hx hfire
      obtain ⟨es1, h1, h2, h3⟩ := this
      exact ⟨es1 ++ es, by rw [g4, h1, List.append_assoc], List.mem_append_left _ h2, List.mem_append_left _ h3⟩

/-- A call past its deadline is ended at the alarm. -/
theorem ended {s : State} (h5 : Inv5 s) (he : EInv s) (hbk : BInv False False s []) (ho : ∀ k, asked k s.tr ≤ 1) {ipc : Nat} {t c : Proc} {k : Nat} {dl : Time} (hs : served ipc s.tr = some (t, c, k))
    (hd : due ipc s.tr = some dl) (e : Env) (hlt : dl < e.now) :
    ∃ es, (s.step (.alarm e)).tr = s.tr ++ .recv (.alarm e) :: es ∧ .error c.ipc (some k) .timeout ∈ es ∧ .assassinate t.pid ∈ es := by
  obtain ⟨i, x, hx, hxp, hip, hxc, hxk⟩ := h5.2 ipc t c k hs
  obtain ⟨d, hdm, hdk, hds, hdt, hdw⟩ := he ipc t c k dl hs hd i x hx (by rw [hxp]; exact hip) hxk
  subst hdk hdw hxp
  obtain ⟨es, h1, h2, h3⟩ := expires_told hds hdt (s.deadlines.takeWhile fun d => decide (d.when_ < e.now)) ((s.emit (.recv (.alarm e))).alarmPrep e) x
    (mem_expired hbk.order hdm hlt) (nobody_waits hbk ho hs) hx hxk hxc
  refine ⟨es, ?_, h2, h3⟩
  show ((s.emit (.recv (.alarm e))).alarm e).tr = _
  rw [alarm_eq]
  have : ((s.emit (.recv (.alarm e))).alarmPrep e).tr = s.tr ++ [.recv (.alarm e)] := rfl
  rw [this] at h1
  split
  · show (List.foldl State.expire _ (s.deadlines.takeWhile _)).tr = _
    rw [h1]; simp
  · show (List.foldl State.expire _ (s.deadlines.takeWhile _)).tr = _
    rw [h1]; simp

end Casual.Service
