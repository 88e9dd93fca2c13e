import Verif.Service.Basic
/-! The basic invariant, and what a lookup can lead to. -/
namespace Casual.Service

/-- The basic invariant of the state. -/
structure Inv (s : State) : Prop where
  names : (s.services.map (·.name)).Nodup
  seqIpc : ∀ i j x y, Index.get s.seq i = some x → Index.get s.seq j = some y → x.proc.ipc = y.proc.ipc → i = j
  conIpc : ∀ i j x y, Index.get s.con i = some x → Index.get s.con j = some y → x.proc.ipc = y.proc.ipc → i = j
  seqs : ∀ v ∈ s.services, ∀ i ∈ v.seqs, ∃ x, Index.get s.seq i = some x ∧ v.name ∈ x.services
  seqsNodup : ∀ v ∈ s.services, v.seqs.Nodup
  cons : ∀ v ∈ s.services, ∀ c ∈ v.cons, ∃ x, Index.get s.con c.id = some x
  consNodup : ∀ v ∈ s.services, (v.cons.map (·.id)).Nodup
  sorted : ∀ v ∈ s.services, Sorted v.cons
  idle : ∀ i x, Index.get s.seq i = some x → x.reserved = none → x.caller = none ∧ x.corr = none

/-- A state with the same services and instances (up to the trace and the bookkeeping). -/
structure Same (s s' : State) : Prop where
  services : s'.services = s.services
  seq : s'.seq = s.seq
  con : s'.con = s.con

theorem Inv.same {s s' : State} (h : Inv s) (e : Same s s') : Inv s' := by
  obtain ⟨e1, e2, e3⟩ := e
  obtain ⟨h1, h2, h3, h4, h5, h6, h7, h8, h9⟩ := h
  exact ⟨by rw [e1]; exact h1, by rw [e2]; exact h2, by rw [e3]; exact h3, by rw [e1, e2]; exact h4, by rw [e1]; exact h5,
    by rw [e1, e3]; exact h6, by rw [e1]; exact h7, by rw [e1]; exact h8, by rw [e2]; exact h9⟩

theorem svc?_some {s : State} {n : Nat} {v : Svc} (h : s.svc? n = some v) : v ∈ s.services ∧ v.name = n :=
  ⟨List.mem_of_find?_eq_some h, by simpa using List.find?_some h⟩

theorem svc?_of_mem {s : State} (hn : (s.services.map (·.name)).Nodup) {v : Svc} (hv : v ∈ s.services) : s.svc? v.name = some v := by
  cases h : s.svc? v.name with
  | none =>
    unfold State.svc? at h
    rw [List.find?_eq_none] at h
    exact absurd (by simp) (h v hv)
  | some w =>
    have hw := svc?_some h
    rw [eq_of_nodup_map hn hw.1 hv hw.2]

theorem svc?_none {s : State} {n : Nat} (h : s.svc? n = none) {v : Svc} (hv : v ∈ s.services) : v.name ≠ n := by
  unfold State.svc? at h
  rw [List.find?_eq_none] at h
  simpa using h v hv

/-- Deadlines, timer and time left after a sequential instance has been handed out. -/
def seqDl (s : State) (v : Svc) (i : Nat) (r : Req) (e : Env) : List Entry × Option Time × Option Int :=
  match s.deadlines.find? fun d => d.corr == r.corr with
  | some d => (claimEntry r.corr v.name i s.deadlines, s.timer, some (d.when_ - e.now))
  | none =>
    match calcDeadline v.timeout e.now r.deadline with
    | some t =>
      let a := addDeadline { when_ := t, corr := r.corr, target := some i, service := some v.name } s.deadlines
      (a.1, (match a.2 with | some n => some n | none => s.timer), some (t - e.now))
    | none => (s.deadlines, s.timer, none)

theorem replySeq_eq (s : State) (v : Svc) (i : Nat) (p : Proc) (r : Req) (e : Env) :
    s.replySeq v i p r e = { s with deadlines := (seqDl s v i r e).1, timer := (seqDl s v i r e).2.1, tr := s.tr ++ [.idle r .sequential p (seqDl s v i r e).2.2] } := by
  unfold State.replySeq seqDl
  cases hf : s.deadlines.find? fun d => d.corr == r.corr with
  | some d => rfl
  | none =>
    cases ht : calcDeadline v.timeout e.now r.deadline with
    | none => rfl
    | some t =>
      simp only
      generalize addDeadline _ _ = a
      obtain ⟨ds, n⟩ := a
      cases n <;> rfl

/-- Deadlines after a lookup has become pending. -/
def pendDl (s : State) (v : Svc) (r : Req) (e : Env) : List Entry :=
  if r.sem = .wait then s.deadlines
  else
    match calcDeadline v.timeout e.now r.deadline with
    | some t => (addDeadline { when_ := t, corr := r.corr, target := none, service := none } s.deadlines).1
    | none => s.deadlines

theorem pend_eq (s : State) (v : Svc) (r : Req) (e : Env) :
    s.pend v r e = if r.sem = .noReply then s.emit (.idle r .forward s.forward none)
      else { s with deadlines := pendDl s v r e, lookups := s.lookups ++ [{ req := r, when_ := e.now }] } := by
  unfold State.pend pendDl
  cases r.sem <;> rfl

/-- The reservation of an instance. -/
def SeqI.reserve (r : Req) (n : Nat) (x : SeqI) : SeqI :=
  { x with reserved := some n, caller := if r.noReply then none else some r.proc, corr := some r.corr }

/-- The associations after a concurrent instance has been handed out. -/
def assocAfter (s : State) (r : Req) (i : Nat) : List (Nat × List Nat) :=
  match r.gtrid with
  | none => s.assoc
  | some t =>
    match s.assoc.find? fun a => a.1 == t with
    | some _ => s.assoc.map fun b => if b.1 = t ∧ i ∉ b.2 then (b.1, b.2 ++ [i]) else b
    | none => s.assoc ++ [(t, [i])]

/-- The instances preferred. -/
def preferred (s : State) (r : Req) : List Nat :=
  match r.gtrid with
  | none => []
  | some t =>
    match s.assoc.find? fun a => a.1 == t with
    | some a => a.2
    | none => []

/-- What a lookup leads to. -/
inductive Outcome (s : State) (r : Req) (e : Env) : State → Prop
  /-- the service is not known, or has no sequential instance and the caller is from outside -/
  | absent (h1 : ∀ v, s.svc? r.name = some v → v.seqs = [] ∧ r.who = .external)
      (h2 : s.svc? r.name = none → r.who ≠ .internal) : Outcome s r e (s.noEntry r)
  | discover (h1 : ∀ v, s.svc? r.name = some v → v.seqs = [] ∧ v.cons = [] ∧ r.who ≠ .external)
      (h2 : s.svc? r.name = none → r.who = .internal) : Outcome s r e (s.discover r e)
  | forward (v : Svc) (h1 : s.svc? r.name = some v) (h2 : v.seqs ≠ [])
      (h3 : ∀ i ∈ v.seqs, ∀ x, Index.get s.seq i = some x → x.reserved.isSome) (h4 : r.sem = .noReply) :
      Outcome s r e (s.emit (.idle r .forward s.forward none))
  | pending (v : Svc) (h1 : s.svc? r.name = some v) (h2 : v.seqs ≠ [])
      (h3 : ∀ i ∈ v.seqs, ∀ x, Index.get s.seq i = some x → x.reserved.isSome) (h4 : r.sem ≠ .noReply) :
      Outcome s r e { s with deadlines := pendDl s v r e, lookups := s.lookups ++ [{ req := r, when_ := e.now }] }
  | seq (v : Svc) (i : Nat) (x : SeqI) (h1 : s.svc? r.name = some v) (h2 : i ∈ v.seqs) (h3 : Index.get s.seq i = some x)
      (h4 : x.reserved = none) :
      Outcome s r e { s with seq := Index.modify s.seq i (SeqI.reserve r v.name), deadlines := (seqDl s v i r e).1, timer := (seqDl s v i r e).2.1, tr := s.tr ++ [.idle r .sequential x.proc (seqDl s v i r e).2.2] }
  | con (v : Svc) (i : Nat) (x : ConI) (h1 : s.svc? r.name = some v) (h2 : v.seqs = []) (h3 : Index.get s.con i = some x)
      (h4 : v.nextConcurrent (preferred s r) (e.pick r.corr) = some i) (h5 : r.who ≠ .external) :
      Outcome s r e { s with assoc := assocAfter s r i, tr := s.tr ++ [.idle r .concurrent x.proc ((calcDeadline v.timeout e.now r.deadline).map fun t => t - e.now)] }

theorem internalOnly_empty {s : State} {v : Svc} (r : Req) (e : Env) (h : v.seqs = []) : s.internalOnly v r e = (s, false) := by
  simp [State.internalOnly, h]

theorem internalOnly_outcome {s : State} (h : Inv s) {v : Svc} {r : Req} (e : Env) (hv : s.svc? r.name = some v) (hne : v.seqs ≠ []) :
    ∃ s', s.internalOnly v r e = (s', true) ∧ Outcome s r e s' := by
  have hm := svc?_some hv
  have hne' : v.seqs.isEmpty = false := by simpa using hne
  unfold State.internalOnly
  rw [hne']
  simp only [Bool.false_eq_true, if_false]
  cases hr : s.reserveSeq v with
  | none =>
    refine ⟨_, rfl, ?_⟩
    have hb : ∀ i ∈ v.seqs, ∀ x, Index.get s.seq i = some x → x.reserved.isSome := by
      intro i hi x hx
      unfold State.reserveSeq at hr
      rw [List.find?_eq_none] at hr
      have := hr i hi
      rw [hx] at this
      cases hx2 : x.reserved <;> simp_all
    rw [pend_eq]
    split
    · exact .forward v hv hne hb ‹_›
    · exact .pending v hv hne hb ‹_›
  | some i =>
    unfold State.reserveSeq at hr
    have hi := List.mem_of_find?_eq_some hr
    have hp := List.find?_some hr
    cases hx : Index.get s.seq i with
    | none => simp [hx] at hp
    | some x =>
      have hf : x.reserved = none := by simpa [hx] using hp
      simp only [hx]
      refine ⟨_, rfl, ?_⟩
      rw [replySeq_eq]
      exact .seq v i x hv hi hx hf

theorem externalInternal_outcome {s : State} (h : Inv s) {v : Svc} {r : Req} (e : Env) (hv : s.svc? r.name = some v) (hw : r.who ≠ .external) :
    (s.externalInternal v r e = (s, false) ∧ v.seqs = [] ∧ v.cons = []) ∨ ∃ s', s.externalInternal v r e = (s', true) ∧ Outcome s r e s' := by
  have hm := svc?_some hv
  by_cases hne : v.seqs = []
  · unfold State.externalInternal
    rw [internalOnly_empty r e hne]
    simp only
    have key : ∀ pref pick i, v.nextConcurrent pref pick = some i → ∃ x, Index.get s.con i = some x := by
      intro pref pick i hi
      obtain ⟨⟨c, hc, hc'⟩, -⟩ := next_some hi
      have := (mem_prioritized (h.sorted v hm.1)).mp hc
      rw [← hc']
      exact h.cons v hm.1 c this.1
    cases hg : r.gtrid with
    | none =>
      simp only
      cases hn : v.nextConcurrent [] (e.pick r.corr) with
      | none => exact .inl ⟨rfl, hne, next_none.mp hn⟩
      | some i =>
        obtain ⟨x, hx⟩ := key _ _ _ hn
        simp only [hx]
        refine .inr ⟨_, rfl, ?_⟩
        have := Outcome.con (e := e) v i x hv hne hx (by simpa [preferred, hg] using hn) hw
        simpa [assocAfter, hg, State.replyCon, State.emit] using this
    | some t =>
      simp only
      cases hf : s.assoc.find? fun a => a.1 == t with
      | none =>
        simp only
        cases hn : v.nextConcurrent [] (e.pick r.corr) with
        | none => exact .inl ⟨rfl, hne, next_none.mp hn⟩
        | some i =>
          obtain ⟨x, hx⟩ := key _ _ _ hn
          simp only [hx]
          refine .inr ⟨_, rfl, ?_⟩
          have := Outcome.con (e := e) v i x hv hne hx (by simpa [preferred, hg, hf] using hn) hw
          simpa [assocAfter, hg, hf, State.replyCon, State.emit] using this
      | some a =>
        simp only
        cases hn : v.nextConcurrent a.2 (e.pick r.corr) with
        | none => exact .inl ⟨rfl, hne, next_none.mp hn⟩
        | some i =>
          obtain ⟨x, hx⟩ := key _ _ _ hn
          simp only [hx]
          refine .inr ⟨_, rfl, ?_⟩
          have := Outcome.con (e := e) v i x hv hne hx (by simpa [preferred, hg, hf] using hn) hw
          simpa [assocAfter, hg, hf, State.replyCon, State.emit] using this
  · obtain ⟨s', h1, h2⟩ := internalOnly_outcome h e hv hne
    refine .inr ⟨s', ?_, h2⟩
    unfold State.externalInternal
    rw [h1]

theorem lookup_outcome {s : State} (h : Inv s) (r : Req) (e : Env) : Outcome s r e (s.lookup r e) := by
  unfold State.lookup
  cases hv : s.svc? r.name with
  | none =>
    simp only
    split
    · exact .discover (by simp [hv]) (fun _ => ‹_›)
    · exact .absent (by simp [hv]) (fun _ => ‹_›)
  | some v =>
    simp only
    cases hw : r.who with
    | external =>
      simp only
      by_cases hne : v.seqs = []
      · rw [internalOnly_empty r e hne]
        exact .absent (by simp [hv, hne, hw]) (by simp [hv])
      · obtain ⟨s', h1, h2⟩ := internalOnly_outcome h e hv hne
        rw [h1]; exact h2
    | internal =>
      simp only
      rcases externalInternal_outcome h e hv (by simp [hw]) with ⟨h1, h2, h3⟩ | ⟨s', h1, h2⟩
      · rw [h1]; exact .discover (by simp [hv, h2, h3, hw]) (by simp [hv])
      · rw [h1]; exact h2
    | externalDiscovery =>
      simp only
      rcases externalInternal_outcome h e hv (by simp [hw]) with ⟨h1, h2, h3⟩ | ⟨s', h1, h2⟩
      · rw [h1]; exact .discover (by simp [hv, h2, h3, hw]) (by simp [hv])
      · rw [h1]; exact h2

theorem discover_eq (s : State) (r : Req) (e : Env) :
    s.discover r e = if r.corr ∈ e.sent ∨ r.sem = .wait then { s.emit (.discover r.name r.corr) with lookups := s.lookups ++ [{ req := r, when_ := e.now }] }
      else (s.emit (.discover r.name r.corr)).emit (.absent r.proc.ipc r.corr r.name) := rfl

theorem discover_same (s : State) (r : Req) (e : Env) : Same s (s.discover r e) := by
  rw [discover_eq]; split <;> exact ⟨rfl, rfl, rfl⟩

/-- A change of instances that keeps who they are and what they provide. -/
theorem Inv.modifySeq {s s' : State} (h : Inv s) (hs : s'.services = s.services) (hc : s'.con = s.con) {f : Nat → SeqI → SeqI}
    (hf : ∀ i, Index.get s'.seq i = (Index.get s.seq i).map (f i)) (hp : ∀ i x, (f i x).proc = x.proc) (hv : ∀ i x, ∀ n ∈ x.services, n ∈ (f i x).services)
    (hi : ∀ i x, Index.get s.seq i = some x → (f i x).reserved = none → (f i x).caller = none ∧ (f i x).corr = none) : Inv s' := by
  obtain ⟨h1, h2, h3, h4, h5, h6, h7, h8, h9⟩ := h
  have inv : ∀ {i y}, Index.get s'.seq i = some y → ∃ x, Index.get s.seq i = some x ∧ y = f i x := by
    intro i y hy
    rw [hf i] at hy
    cases hx : Index.get s.seq i with
    | none => simp [hx] at hy
    | some x => exact ⟨x, rfl, by simpa [hx] using hy.symm⟩
  refine ⟨by rw [hs]; exact h1, ?_, by rw [hc]; exact h3, ?_, by rw [hs]; exact h5, by rw [hs, hc]; exact h6, by rw [hs]; exact h7, by rw [hs]; exact h8, ?_⟩
  · intro i j x y hx hy he
    obtain ⟨x', hx', rfl⟩ := inv hx
    obtain ⟨y', hy', rfl⟩ := inv hy
    rw [hp, hp] at he
    exact h2 i j x' y' hx' hy' he
  · rw [hs]
    intro v hv' i hi'
    obtain ⟨x, hx, hn⟩ := h4 v hv' i hi'
    exact ⟨f i x, by rw [hf, hx]; rfl, hv i x _ hn⟩
  · intro i y hy hr
    obtain ⟨x, hx, rfl⟩ := inv hy
    exact hi i x hx hr

theorem get_reserve {s : State} {i : Nat} {x : SeqI} (r : Req) (n : Nat) (h : Index.get s.seq i = some x) (j : Nat) :
    Index.get (Index.modify s.seq i (SeqI.reserve r n)) j = (Index.get s.seq j).map (if j = i then SeqI.reserve r n else id) := by
  rw [Index.get_modify]
  split
  · subst ‹j = i›; rfl
  · simp

theorem Inv.outcome {s s' : State} (h : Inv s) {r : Req} {e : Env} (o : Outcome s r e s') : Inv s' := by
  cases o with
  | absent => exact h.same ⟨rfl, rfl, rfl⟩
  | discover => exact h.same (discover_same s r e)
  | forward => exact h.same ⟨rfl, rfl, rfl⟩
  | pending => exact h.same ⟨rfl, rfl, rfl⟩
  | con => exact h.same ⟨rfl, rfl, rfl⟩
  | seq v i x h1 h2 h3 h4 =>
    refine h.modifySeq rfl rfl (f := fun j => if j = i then SeqI.reserve r v.name else id) (fun j => ?_) ?_ ?_ ?_
    · simpa using get_reserve r v.name h3 j
    · intro j y; by_cases hj : j = i <;> simp [hj, SeqI.reserve]
    · intro j y; by_cases hj : j = i <;> simp [hj, SeqI.reserve]
    · intro j y hy hr
      by_cases hj : j = i
      · simp [hj, SeqI.reserve] at hr
      · simp only [hj, if_false, id] at hr ⊢
        exact h.idle j y hy hr

theorem Inv.lookup {s : State} (h : Inv s) (r : Req) (e : Env) : Inv (s.lookup r e) := h.outcome (lookup_outcome h r e)

/-- Induction over repeated lookups. -/
theorem again_ind {P : State → Prop} {e : Env} (hstep : ∀ s r, P s → P (s.lookup r e)) (ls : List Lookup) {s : State} (h : P s) :
    P (s.again ls e) := by
  unfold State.again
  induction ls generalizing s with
  | nil => exact h
  | cons l ls ih => exact ih (hstep s l.req h)

theorem Inv.again {s : State} (h : Inv s) (ls : List Lookup) (e : Env) : Inv (s.again ls e) :=
  again_ind (P := Inv) (fun _ r h => h.lookup r e) ls h

end Casual.Service
