import Verif.Service.Use
/-! The trace and the services: what a service lists has been offered. -/
namespace Casual.Service

/-- The service `n` lists the sequential instance `j`. -/
def Lists (s : State) (n j : Nat) : Prop := ∃ v ∈ s.services, v.name = n ∧ j ∈ v.seqs

/-- The service `n` lists the concurrent instance. -/
def CLists (s : State) (n : Nat) (c : ConE) : Prop := ∃ v ∈ s.services, v.name = n ∧ c ∈ v.cons

theorem Lists.of_services {s s' : State} (h : s'.services = s.services) {n j : Nat} : Lists s' n j ↔ Lists s n j := by
  unfold Lists; rw [h]

theorem CLists.of_services {s s' : State} (h : s'.services = s.services) {n : Nat} {c : ConE} : CLists s' n c ↔ CLists s n c := by
  unfold CLists; rw [h]

theorem lists_without (s : State) (p : Proc → Bool) (n j : Nat) : Lists (s.without p) n j ↔ Lists s n j ∧ j ∉ s.seqIds p := by
  unfold Lists State.without
  constructor
  · rintro ⟨w, hw, hn, hj⟩
    obtain ⟨v, hv, rfl⟩ := List.mem_map.mp hw
    obtain ⟨h1, h2⟩ := List.mem_filter.mp hj
    exact ⟨⟨v, hv, hn, h1⟩, by simpa using h2⟩
  · rintro ⟨⟨v, hv, hn, hj⟩, h2⟩
    exact ⟨_, List.mem_map.mpr ⟨v, hv, rfl⟩, hn, List.mem_filter.mpr ⟨hj, by simpa using h2⟩⟩

theorem clists_without (s : State) (p : Proc → Bool) (n : Nat) (c : ConE) : CLists (s.without p) n c ↔ CLists s n c ∧ c.id ∉ s.conIds p := by
  unfold CLists State.without
  constructor
  · rintro ⟨w, hw, hn, hj⟩
    obtain ⟨v, hv, rfl⟩ := List.mem_map.mp hw
    obtain ⟨h1, h2⟩ := List.mem_filter.mp hj
    exact ⟨⟨v, hv, hn, h1⟩, by simpa using h2⟩
  · rintro ⟨⟨v, hv, hn, hj⟩, h2⟩
    exact ⟨_, List.mem_map.mpr ⟨v, hv, rfl⟩, hn, List.mem_filter.mpr ⟨hj, by simpa using h2⟩⟩

theorem lists_insertSvc (s : State) (n : Nat) (t : Option Int) (m j : Nat) : Lists (s.insertSvc n t) m j ↔ Lists s m j := by
  rcases insertSvc_cases s n t with ⟨-, e⟩ | ⟨-, e⟩
  · rw [e]
  · rw [e]
    unfold Lists
    constructor
    · rintro ⟨v, hv, h⟩
      rcases List.mem_append.mp hv with hv | hv
      · exact ⟨v, hv, h⟩
      · rw [List.mem_singleton] at hv; subst hv; cases h.2
    · rintro ⟨v, hv, h⟩
      exact ⟨v, List.mem_append_left _ hv, h⟩

theorem clists_insertSvc (s : State) (n : Nat) (t : Option Int) (m : Nat) (c : ConE) : CLists (s.insertSvc n t) m c ↔ CLists s m c := by
  rcases insertSvc_cases s n t with ⟨-, e⟩ | ⟨-, e⟩
  · rw [e]
  · rw [e]
    unfold CLists
    constructor
    · rintro ⟨v, hv, h⟩
      rcases List.mem_append.mp hv with hv | hv
      · exact ⟨v, hv, h⟩
      · rw [List.mem_singleton] at hv; subst hv; cases h.2
    · rintro ⟨v, hv, h⟩
      exact ⟨v, List.mem_append_left _ hv, h⟩

theorem insertSvc_known (s : State) (n : Nat) (t : Option Int) : ∃ v ∈ (s.insertSvc n t).services, v.name = n := by
  rcases insertSvc_cases s n t with ⟨h, e⟩ | ⟨-, e⟩
  · rw [e]
    obtain ⟨v, hv⟩ := Option.isSome_iff_exists.mp h
    exact ⟨v, svc?_some hv⟩
  · rw [e]
    exact ⟨_, List.mem_append_right _ (List.mem_singleton.mpr rfl), rfl⟩

theorem lists_addSeqService (i : Nat) (s : State) (n m j : Nat) : Lists (State.addSeqService i s n) m j ↔ Lists s m j ∨ (j = i ∧ m = n) := by
  rw [addSeqService_eq, ← lists_insertSvc s n s.timeout]
  unfold Lists
  constructor
  · rintro ⟨w, hw, hn, hj⟩
    obtain ⟨v, hv, rfl⟩ := List.mem_map.mp hw
    split at hn
    · rename_i hvn
      rw [if_pos hvn] at hj
      rw [addSeq_name] at hn
      rcases mem_addSeq.mp hj with e | e
      · exact .inr ⟨e, hn ▸ hvn⟩
      · exact .inl ⟨v, hv, hn, e⟩
    · rename_i hvn
      rw [if_neg hvn] at hj
      exact .inl ⟨v, hv, hn, hj⟩
  · rintro (⟨v, hv, hn, hj⟩ | ⟨rfl, rfl⟩)
    · refine ⟨_, List.mem_map.mpr ⟨v, hv, rfl⟩, ?_⟩
      split
      · exact ⟨by rw [addSeq_name]; exact hn, mem_addSeq.mpr (.inr hj)⟩
      · exact ⟨hn, hj⟩
    · obtain ⟨v, hv, hn⟩ := insertSvc_known s m s.timeout
      refine ⟨_, List.mem_map.mpr ⟨v, hv, rfl⟩, ?_⟩
      rw [if_pos hn]
      exact ⟨by rw [addSeq_name]; exact hn, mem_addSeq.mpr (.inl rfl)⟩

theorem lists_addSeqServices (i : Nat) (s : State) (add : List Nat) (m j : Nat) : Lists (add.foldl (State.addSeqService i) s) m j ↔ Lists s m j ∨ (j = i ∧ m ∈ add) := by
  induction add generalizing s with
  | nil => simp
  | cons n add ih =>
    rw [List.foldl_cons, ih, lists_addSeqService]
    simp only [List.mem_cons]
    constructor
    · rintro ((h | ⟨h1, h2⟩) | ⟨h1, h2⟩)
      · exact .inl h
      · exact .inr ⟨h1, .inl h2⟩
      · exact .inr ⟨h1, .inr h2⟩
    · rintro (h | ⟨h1, h2 | h2⟩)
      · exact .inl (.inl h)
      · exact .inl (.inr ⟨h1, h2⟩)
      · exact .inr ⟨h1, h2⟩

theorem clists_addSeqService (i : Nat) (s : State) (n m : Nat) (c : ConE) : CLists (State.addSeqService i s n) m c ↔ CLists s m c := by
  rw [addSeqService_eq, ← clists_insertSvc s n s.timeout]
  unfold CLists
  constructor
  · rintro ⟨w, hw, hn, hj⟩
    obtain ⟨v, hv, rfl⟩ := List.mem_map.mp hw
    refine ⟨v, hv, ?_⟩
    split at hn
    · rename_i hvn
      rw [if_pos hvn, addSeq_cons] at hj
      rw [addSeq_name] at hn
      exact ⟨hn, hj⟩
    · rename_i hvn
      rw [if_neg hvn] at hj
      exact ⟨hn, hj⟩
  · rintro ⟨v, hv, hn, hj⟩
    refine ⟨_, List.mem_map.mpr ⟨v, hv, rfl⟩, ?_⟩
    split
    · exact ⟨by rw [addSeq_name]; exact hn, by rw [addSeq_cons]; exact hj⟩
    · exact ⟨hn, hj⟩

theorem clists_addSeqServices (i : Nat) (s : State) (add : List Nat) (m : Nat) (c : ConE) : CLists (add.foldl (State.addSeqService i) s) m c ↔ CLists s m c := by
  induction add generalizing s with
  | nil => simp
  | cons n add ih => rw [List.foldl_cons, ih, clists_addSeqService]

theorem lists_removeSeqServices (s : State) (i : Nat) (names : List Nat) (m j : Nat) : Lists (s.removeSeqServices i names) m j ↔ Lists s m j ∧ ¬ (j = i ∧ m ∈ names) := by
  show (∃ v ∈ s.services.map (fun v => if v.name ∈ names then v.removeSeq i else v), v.name = m ∧ j ∈ v.seqs) ↔ _
  unfold Lists
  constructor
  · rintro ⟨w, hw, hn, hj⟩
    obtain ⟨v, hv, rfl⟩ := List.mem_map.mp hw
    split at hn
    · rename_i hvn
      rw [if_pos hvn] at hj
      obtain ⟨h1, h2⟩ := List.mem_filter.mp hj
      exact ⟨⟨v, hv, hn, h1⟩, fun h => by simp [h.1] at h2⟩
    · rename_i hvn
      rw [if_neg hvn] at hj
      exact ⟨⟨v, hv, hn, hj⟩, fun h => hvn (hn ▸ h.2)⟩
  · rintro ⟨⟨v, hv, hn, hj⟩, h2⟩
    refine ⟨_, List.mem_map.mpr ⟨v, hv, rfl⟩, ?_⟩
    split
    · rename_i hvn
      refine ⟨hn, List.mem_filter.mpr ⟨hj, ?_⟩⟩
      simp only [decide_eq_true_eq]
      exact fun e => h2 ⟨e, hn ▸ hvn⟩
    · exact ⟨hn, hj⟩

theorem clists_removeSeqServices (s : State) (i : Nat) (names : List Nat) (m : Nat) (c : ConE) : CLists (s.removeSeqServices i names) m c ↔ CLists s m c := by
  show (∃ v ∈ s.services.map (fun v => if v.name ∈ names then v.removeSeq i else v), v.name = m ∧ c ∈ v.cons) ↔ _
  unfold CLists
  constructor
  · rintro ⟨w, hw, hn, hj⟩
    obtain ⟨v, hv, rfl⟩ := List.mem_map.mp hw
    refine ⟨v, hv, ?_⟩
    split at hn
    · rename_i hvn; rw [if_pos hvn] at hj; exact ⟨hn, hj⟩
    · rename_i hvn; rw [if_neg hvn] at hj; exact ⟨hn, hj⟩
  · rintro ⟨v, hv, hn, hj⟩
    refine ⟨_, List.mem_map.mpr ⟨v, hv, rfl⟩, ?_⟩
    split <;> exact ⟨hn, hj⟩

theorem lists_conServices (s : State) (i : Nat) (o : Int) (add : List (Nat × Int × Option Int)) (m j : Nat) : Lists (add.foldl (State.addConService i o) s) m j ↔ Lists s m j := by
  induction add generalizing s with
  | nil => simp
  | cons a add ih =>
    rw [List.foldl_cons, ih, addConService_eq]
    rw [← lists_insertSvc s a.1 (match a.2.2 with | some d => if d > 0 then some d else none | none => none)]
    unfold Lists
    constructor
    · rintro ⟨w, hw, hn, hj⟩
      obtain ⟨v, hv, rfl⟩ := List.mem_map.mp hw
      refine ⟨v, hv, ?_⟩
      split at hn
      · rename_i hvn
        rw [if_pos hvn, addCon_seqs] at hj
        rw [addCon_name] at hn
        exact ⟨hn, hj⟩
      · rename_i hvn
        rw [if_neg hvn] at hj
        exact ⟨hn, hj⟩
    · rintro ⟨v, hv, hn, hj⟩
      refine ⟨_, List.mem_map.mpr ⟨v, hv, rfl⟩, ?_⟩
      split
      · exact ⟨by rw [addCon_name]; exact hn, by rw [addCon_seqs]; exact hj⟩
      · exact ⟨hn, hj⟩

theorem lists_removeConServices (s : State) (i : Nat) (names : List Nat) (m j : Nat) : Lists (s.removeConServices i names) m j ↔ Lists s m j := by
  show (∃ v ∈ s.services.map (fun v => if v.name ∈ names then v.removeCon i else v), v.name = m ∧ j ∈ v.seqs) ↔ _
  unfold Lists
  constructor
  · rintro ⟨w, hw, hn, hj⟩
    obtain ⟨v, hv, rfl⟩ := List.mem_map.mp hw
    refine ⟨v, hv, ?_⟩
    split at hn
    · rename_i hvn; rw [if_pos hvn] at hj; exact ⟨hn, hj⟩
    · rename_i hvn; rw [if_neg hvn] at hj; exact ⟨hn, hj⟩
  · rintro ⟨v, hv, hn, hj⟩
    refine ⟨_, List.mem_map.mpr ⟨v, hv, rfl⟩, ?_⟩
    split <;> exact ⟨hn, hj⟩

theorem lists_cinstance (s : State) (p : Proc) (alias : Nat) (order : Int) (m j : Nat) : Lists (s.cinstance p alias order) m j ↔ Lists s m j := by
  unfold State.cinstance
  split
  · exact Iff.rfl
  · show (∃ v ∈ s.services.map (fun v => { v with cons := sortCons v.cons }), v.name = m ∧ j ∈ v.seqs) ↔ _
    unfold Lists
    constructor
    · rintro ⟨w, hw, h⟩
      obtain ⟨v, hv, rfl⟩ := List.mem_map.mp hw
      exact ⟨v, hv, h⟩
    · rintro ⟨v, hv, h⟩
      exact ⟨_, List.mem_map.mpr ⟨v, hv, rfl⟩, h⟩

theorem clists_cinstance (s : State) (p : Proc) (alias : Nat) (order : Int) (m : Nat) (c : ConE) : CLists (s.cinstance p alias order) m c ↔ CLists s m c := by
  unfold State.cinstance
  split
  · exact Iff.rfl
  · show (∃ v ∈ s.services.map (fun v => { v with cons := sortCons v.cons }), v.name = m ∧ c ∈ v.cons) ↔ _
    unfold CLists
    constructor
    · rintro ⟨w, hw, hn, h⟩
      obtain ⟨v, hv, rfl⟩ := List.mem_map.mp hw
      exact ⟨v, hv, hn, mem_sortCons.mp h⟩
    · rintro ⟨v, hv, hn, h⟩
      exact ⟨_, List.mem_map.mpr ⟨v, hv, rfl⟩, hn, mem_sortCons.mpr h⟩

/-- The preparation of a shutdown delists one instance. -/
theorem lists_prepareOne {s : State} (h : Inv s) (r : List Nat × List Nat × List Proc) (p : Proc) (m j : Nat) :
    Lists (s.prepareOne r p).1 m j ↔ Lists s m j ∧ s.seqOf p.ipc ≠ some j := by
  rcases prepareOne_eq s r p with ⟨i, x, ho, hx, e, -⟩ | ⟨ho, e⟩
  · rw [e, ho]
    show (∃ v ∈ s.services.map (fun v => if v.name ∈ x.services then v.removeSeq i else v), v.name = m ∧ j ∈ v.seqs) ↔ _
    unfold Lists
    constructor
    · rintro ⟨w, hw, hn, hj⟩
      obtain ⟨v, hv, rfl⟩ := List.mem_map.mp hw
      split at hn
      · rename_i hvn
        rw [if_pos hvn] at hj
        obtain ⟨h1, h2⟩ := List.mem_filter.mp hj
        exact ⟨⟨v, hv, hn, h1⟩, fun h => by simp only [Option.some.injEq] at h; simp [h] at h2⟩
      · rename_i hvn
        rw [if_neg hvn] at hj
        refine ⟨⟨v, hv, hn, hj⟩, fun he => hvn ?_⟩
        simp only [Option.some.injEq] at he
        subst he
        obtain ⟨y, hy, hyn⟩ := h.seqs v hv _ hj
        rw [hx] at hy; cases hy; exact hyn
    · rintro ⟨⟨v, hv, hn, hj⟩, h2⟩
      refine ⟨_, List.mem_map.mpr ⟨v, hv, rfl⟩, ?_⟩
      split
      · refine ⟨hn, List.mem_filter.mpr ⟨hj, ?_⟩⟩
        simp only [decide_eq_true_eq]
        exact fun e => h2 (by rw [e])
      · exact ⟨hn, hj⟩
  · rw [e, ho]; simp

theorem clists_prepareOne (s : State) (r : List Nat × List Nat × List Proc) (p : Proc) (m : Nat) (c : ConE) :
    CLists (s.prepareOne r p).1 m c ↔ CLists s m c := by
  rcases prepareOne_eq s r p with ⟨i, x, ho, hx, e, -⟩ | ⟨ho, e⟩
  · rw [e]
    show (∃ v ∈ s.services.map (fun v => if v.name ∈ x.services then v.removeSeq i else v), v.name = m ∧ c ∈ v.cons) ↔ _
    unfold CLists
    constructor
    · rintro ⟨w, hw, hn, hj⟩
      obtain ⟨v, hv, rfl⟩ := List.mem_map.mp hw
      refine ⟨v, hv, ?_⟩
      split at hn
      · rename_i hvn; rw [if_pos hvn] at hj; exact ⟨hn, hj⟩
      · rename_i hvn; rw [if_neg hvn] at hj; exact ⟨hn, hj⟩
    · rintro ⟨v, hv, hn, hj⟩
      refine ⟨_, List.mem_map.mpr ⟨v, hv, rfl⟩, ?_⟩
      split <;> exact ⟨hn, hj⟩
  · rw [e]

theorem seqOf_congr {s s' : State} (h : s'.seq = s.seq) (ipc : Nat) : s'.seqOf ipc = s.seqOf ipc := by
  unfold State.seqOf; rw [h]

theorem prepareOne_seq (s : State) (r : List Nat × List Nat × List Proc) (p : Proc) : (s.prepareOne r p).1.seq = s.seq := by
  rcases prepareOne_eq s r p with ⟨i, x, -, -, e, -⟩ | ⟨-, e⟩ <;> rw [e]

theorem lists_prepareAll {s : State} (h : Inv s) (r : List Nat × List Nat × List Proc) (ps : List Proc) (m j : Nat) :
    Lists (s.prepareAll r ps).1 m j ↔ Lists s m j ∧ ∀ p ∈ ps, s.seqOf p.ipc ≠ some j := by
  induction ps generalizing s r with
  | nil => simp [State.prepareAll]
  | cons p ps ih =>
    rw [prepareAll_cons, ih (h.prepareOne r p), lists_prepareOne h, List.forall_mem_cons, and_assoc]
    simp only [seqOf_congr (prepareOne_seq s r p)]

theorem clists_prepareAll (s : State) (r : List Nat × List Nat × List Proc) (ps : List Proc) (m : Nat) (c : ConE) :
    CLists (s.prepareAll r ps).1 m c ↔ CLists s m c := by
  induction ps generalizing s r with
  | nil => exact Iff.rfl
  | cons p ps ih => rw [prepareAll_cons, ih, clists_prepareOne]

theorem prepareAll_ids {s : State} (r : List Nat × List Nat × List Proc) (ps : List Proc) :
    ∀ i ∈ (s.prepareAll r ps).2.2.1, i ∈ r.2.1 ∨ ∃ p ∈ ps, s.seqOf p.ipc = some i := by
  induction ps generalizing s r with
  | nil => exact fun i hi => .inl hi
  | cons p ps ih =>
    intro i hi
    rw [prepareAll_cons] at hi
    rcases ih _ i hi with h | ⟨q, hq, h⟩
    · rcases prepareOne_eq s r p with ⟨k, x, ho, hx, e, e2⟩ | ⟨ho, e⟩
      · rw [e2] at h
        rcases List.mem_append.mp h with h | h
        · exact .inl h
        · rw [List.mem_singleton] at h; subst h
          exact .inr ⟨p, List.mem_cons_self, ho⟩
      · rw [e] at h; exact .inl h
    · rw [seqOf_congr (prepareOne_seq s r p)] at h
      exact .inr ⟨q, List.mem_cons_of_mem _ hq, h⟩

/-! ## The invariant -/

theorem allowed_eq (s : State) (alias n : Nat) : s.allowed alias n = permitted s.restriction alias n := by
  unfold State.allowed permitted
  cases s.restriction.find? fun a => a.1 == alias <;> rfl

/-- Who the instances are. -/
def State.procs (s : State) (i : Nat) : Option Proc := (Index.get s.seq i).map (·.proc)

theorem procs_some {s : State} {i : Nat} {p : Proc} : s.procs i = some p ↔ ∃ x, Index.get s.seq i = some x ∧ x.proc = p := by
  unfold State.procs
  rw [Option.map_eq_some_iff]

/-- A sequential instance that is handed out offers the service. -/
def GoodOffer (res : List (Nat × List Nat)) (a : List Ev) : Ev → Prop
  | .idle r .sequential t _ => ∃ ns, offers res t.ipc a = some (t, ns) ∧ r.name ∈ ns
  | _ => True

/-- A local instance comes first: a concurrent instance is handed out only if no sequential one offers the service. -/
def GoodLocal (res : List (Nat × List Nat)) (a : List Ev) : Ev → Prop
  | .idle r .concurrent _ _ => ∀ ipc q ns, offers res ipc a = some (q, ns) → r.name ∉ ns
  | _ => True

/-- What is listed has been offered; and with `ex`, the other way round. -/
structure OfferInv (ex : Prop) (s : State) : Prop where
  lists : ∀ i p, s.procs i = some p → ∃ ns, offers s.restriction p.ipc s.tr = some (p, ns) ∧ ∀ n, Lists s n i → n ∈ ns
  known : ∀ ipc q ns, offers s.restriction ipc s.tr = some (q, ns) → q.ipc = ipc ∧ ∃ i, s.procs i = some q
  disabled : ∀ i ∈ s.disabled, ∀ n, ¬ Lists s n i
  fatal : s.fatal = false
  exact : ex → s.disabled = [] ∧ ∀ i p ns, s.procs i = some p → offers s.restriction p.ipc s.tr = some (p, ns) → ∀ n ∈ ns, Lists s n i
  good : AllGood (GoodOffer s.restriction) s.tr
  goodLocal : ex → AllGood (GoodLocal s.restriction) s.tr

/-- Not about what is offered, or handed out. -/
def OQuiet (e : Ev) : Prop := (∀ res ipc b, offerStep res ipc b e = b) ∧ (∀ res a, GoodOffer res a e) ∧ ∀ res a, GoodLocal res a e

theorem offers_snoc (res : List (Nat × List Nat)) (ipc : Nat) (tr : List Ev) (e : Ev) : offers res ipc (tr ++ [e]) = offerStep res ipc (offers res ipc tr) e := by
  simp [offers]

theorem offers_quiet {res : List (Nat × List Nat)} {ipc : Nat} {tr es : List Ev} (h : ∀ e ∈ es, OQuiet e) : offers res ipc (tr ++ es) = offers res ipc tr := by
  induction es generalizing tr with
  | nil => simp
  | cons e es ih =>
    rw [show tr ++ e :: es = (tr ++ [e]) ++ es by simp, ih (fun x hx => h x (List.mem_cons_of_mem _ hx)), offers_snoc, (h e List.mem_cons_self).1]

/-- The same instances are listed. -/
structure OSame (s s' : State) : Prop where
  procs : ∀ i, s'.procs i = s.procs i
  lists : ∀ n i, Lists s' n i ↔ Lists s n i
  disabled : s'.disabled = s.disabled
  fatal : s'.fatal = s.fatal
  restriction : s'.restriction = s.restriction

theorem OfferInv.keeps {ex : Prop} {s s' : State} (h : OfferInv ex s) {es : List Ev} (ht : s'.tr = s.tr ++ es) (hq : ∀ e ∈ es, OQuiet e) (hs : OSame s s') : OfferInv ex s' := by
  obtain ⟨e1, e2, e3, e4, e5⟩ := hs
  obtain ⟨h1, h2, h3, h4, h5, h6, h7⟩ := h
  have ho : ∀ ipc, offers s'.restriction ipc s'.tr = offers s.restriction ipc s.tr := fun ipc => by rw [e5, ht, offers_quiet hq]
  refine ⟨?_, ?_, ?_, by rw [e4, h4], ?_, ?_, ?_⟩
  · intro i p hp
    rw [e1] at hp
    obtain ⟨ns, hn, hl⟩ := h1 i p hp
    exact ⟨ns, by rw [ho, hn], fun n hl' => hl n ((e2 n i).mp hl')⟩
  · intro ipc q ns hn
    rw [ho] at hn
    obtain ⟨hq1, i, hi⟩ := h2 ipc q ns hn
    exact ⟨hq1, i, by rw [e1, hi]⟩
  · intro i hi n hl
    rw [e3] at hi
    exact h3 i hi n ((e2 n i).mp hl)
  · intro hex
    obtain ⟨hd, hx⟩ := h5 hex
    refine ⟨by rw [e3, hd], fun i p ns hp hn n hnn => ?_⟩
    rw [e1] at hp
    rw [ho] at hn
    exact (e2 n i).mpr (hx i p ns hp hn n hnn)
  · rw [e5, ht]; exact h6.append fun a e he => (hq e he).2.1 _ a
  · intro hex; rw [e5, ht]; exact (h7 hex).append fun a e he => (hq e he).2.2 _ a

theorem OSame.of_seq {s s' : State} (h1 : s'.seq = s.seq) (h2 : s'.services = s.services) (h3 : s'.disabled = s.disabled) (h4 : s'.fatal = s.fatal) (h5 : s'.restriction = s.restriction) : OSame s s' :=
  ⟨fun i => by unfold State.procs; rw [h1], fun n i => Lists.of_services h2, h3, h4, h5⟩

theorem procs_modify {s s' : State} {i : Nat} {f : SeqI → SeqI} (h : s'.seq = Index.modify s.seq i f) (hf : ∀ x, (f x).proc = x.proc) (j : Nat) : s'.procs j = s.procs j := by
  unfold State.procs
  rw [h, Index.get_modify]
  split
  · rename_i e; subst e
    cases Index.get s.seq j with
    | none => rfl
    | some x => simp [hf]
  · rfl

theorem OfferInv.outcome {ex : Prop} {s s' : State} (h : OfferInv ex s) (hi : Inv s) {r : Req} {e : Env} (o : Outcome s r e s') : OfferInv ex s' := by
  have q1 : ∀ a b c, OQuiet (.absent a b c) := fun a b c => ⟨fun _ _ _ => rfl, fun _ _ => trivial, fun _ _ => trivial⟩
  have q2 : ∀ a b, OQuiet (.discover a b) := fun a b => ⟨fun _ _ _ => rfl, fun _ _ => trivial, fun _ _ => trivial⟩
  cases o with
  | absent => exact h.keeps rfl (by simp [q1]) (OSame.of_seq rfl rfl rfl rfl rfl)
  | discover =>
    rw [discover_eq]
    split
    · exact h.keeps (es := [.discover r.name r.corr]) rfl (by simp [q2]) (OSame.of_seq rfl rfl rfl rfl rfl)
    · refine h.keeps (es := [.discover r.name r.corr, .absent r.proc.ipc r.corr r.name]) ?_ (by simp [q1, q2]) (OSame.of_seq rfl rfl rfl rfl rfl)
      show (s.tr ++ [_]) ++ [_] = _
      simp
  | forward => exact h.keeps rfl (by intro e he; rw [List.mem_singleton] at he; subst he; exact ⟨fun _ _ _ => rfl, fun _ _ => trivial, fun _ _ => trivial⟩) (OSame.of_seq rfl rfl rfl rfl rfl)
  | pending => exact h.keeps (es := []) (by simp) (by simp) (OSame.of_seq rfl rfl rfl rfl rfl)
  | seq v i x h1 h2 h3 h4 =>
    have hm := svc?_some h1
    have hpx : s.procs i = some x.proc := by unfold State.procs; rw [h3]; rfl
    obtain ⟨ns, hn, hl⟩ := h.lists i x.proc hpx
    have hg : GoodOffer s.restriction s.tr (.idle r .sequential x.proc (seqDl s v i r e).2.2) := ⟨ns, hn, hl r.name ⟨v, hm.1, hm.2, h2⟩⟩
    -- the rest as for a quiet event
    have ho : ∀ ipc, offers s.restriction ipc (s.tr ++ [.idle r .sequential x.proc (seqDl s v i r e).2.2]) = offers s.restriction ipc s.tr := fun ipc => by rw [offers_snoc]; rfl
    have hp : ∀ j, State.procs { s with seq := Index.modify s.seq i (SeqI.reserve r v.name) } j = s.procs j := procs_modify (i := i) (f := SeqI.reserve r v.name) rfl (fun _ => rfl)
    obtain ⟨g1, g2, g3, g4, g5, g6, g7⟩ := h
    refine ⟨?_, ?_, g3, g4, ?_, g6.snoc hg, fun hex => (g7 hex).snoc trivial⟩
    · intro j p hj
      obtain ⟨ns, hn, hl⟩ := g1 j p (by rw [← hp j]; exact hj)
      exact ⟨ns, (ho _).trans hn, hl⟩
    · intro ipc q ns hn
      obtain ⟨hq1, j, hj⟩ := g2 ipc q ns ((ho _).symm.trans hn)
      exact ⟨hq1, j, (hp j).trans hj⟩
    · intro hex
      obtain ⟨hd, hx⟩ := g5 hex
      exact ⟨hd, fun j p ns hj hn n hnn => hx j p ns (by rw [← hp j]; exact hj) ((ho _).symm.trans hn) n hnn⟩
  | con v i x h1 h2 h3 h4 h5 =>
    have hm := svc?_some h1
    have hg : ex → GoodLocal s.restriction s.tr (.idle r .concurrent x.proc ((calcDeadline v.timeout e.now r.deadline).map fun t => t - e.now)) := by
      intro hex ipc q ns hn hnm
      obtain ⟨hq1, j, hj⟩ := h.known ipc q ns hn
      obtain ⟨v', hv', hvn, hjs⟩ := (h.exact hex).2 j q ns hj (by rw [hq1]; exact hn) r.name hnm
      have : v' = v := eq_of_nodup_map hi.names hv' hm.1 (by rw [hvn, hm.2])
      subst this
      rw [h2] at hjs; cases hjs
    have ho : ∀ ipc, offers s.restriction ipc (s.tr ++ [.idle r .concurrent x.proc ((calcDeadline v.timeout e.now r.deadline).map fun t => t - e.now)]) = offers s.restriction ipc s.tr := fun ipc => by rw [offers_snoc]; rfl
    obtain ⟨g1, g2, g3, g4, g5, g6, g7⟩ := h
    refine ⟨?_, ?_, g3, g4, ?_, g6.snoc trivial, fun hex => (g7 hex).snoc (hg hex)⟩
    · intro j p hj
      obtain ⟨ns, hn, hl⟩ := g1 j p hj
      exact ⟨ns, (ho _).trans hn, hl⟩
    · intro ipc q ns hn
      obtain ⟨hq1, j, hj⟩ := g2 ipc q ns ((ho _).symm.trans hn)
      exact ⟨hq1, j, hj⟩
    · intro hex
      obtain ⟨hd, hx⟩ := g5 hex
      exact ⟨hd, fun j p ns hj hn n hnn => hx j p ns hj ((ho _).symm.trans hn) n hnn⟩

def Inv3 (ex : Prop) (s : State) : Prop := Inv s ∧ OfferInv ex s

theorem Inv3.lookup {ex : Prop} {s : State} (h : Inv3 ex s) (r : Req) (e : Env) : Inv3 ex (s.lookup r e) :=
  ⟨h.1.lookup r e, h.2.outcome h.1 (lookup_outcome h.1 r e)⟩

theorem Inv3.again {ex : Prop} {s : State} (h : Inv3 ex s) (ls : List Lookup) (e : Env) : Inv3 ex (s.again ls e) :=
  again_ind (P := Inv3 ex) (fun _ r h => h.lookup r e) ls h

theorem Inv3.takePending {ex : Prop} {s : State} (h : Inv3 ex s) (i : Nat) (e : Env) : Inv3 ex (s.takePending i e) := by
  rw [takePending_eq]
  split
  · apply Inv3.lookup
    exact ⟨h.1.same ⟨rfl, rfl, rfl⟩, h.2.keeps (es := []) (by simp) (by simp) (OSame.of_seq rfl rfl rfl rfl rfl)⟩
  · exact h

/-- Instances are removed. -/
theorem OfferInv.without {ex : Prop} {s s' : State} (h : OfferInv ex s) (hi : Inv s) (m : In) {p : Proc → Bool} {es : List Ev}
    (ht : s'.tr = (s.tr ++ [.recv m]) ++ es) (hq : ∀ e ∈ es, OQuiet e)
    (hm : ∀ res ipc q ns, q.ipc = ipc → offerStep res ipc (some (q, ns)) (.recv m) = if p q then none else some (q, ns))
    (hm0 : ∀ res ipc, offerStep res ipc none (.recv m) = none)
    (h1 : s'.seq = (s.without p).seq) (h2 : s'.services = (s.without p).services) (h3 : s'.disabled = (s.without p).disabled)
    (h4 : s'.fatal = s.fatal) (h5 : s'.restriction = s.restriction) : OfferInv ex s' := by
  have hp : ∀ i, s'.procs i = (s.procs i).filter fun q => !p q := by
    intro i
    unfold State.procs
    rw [h1, without_seq]
    cases Index.get s.seq i with
    | none => rfl
    | some x => cases hpx : p x.proc <;> simp [Option.filter, hpx]
  have hl : ∀ n i, Lists s' n i ↔ Lists s n i ∧ i ∉ s.seqIds p := fun n i => (Lists.of_services h2).trans (lists_without s p n i)
  have ho : ∀ ipc, offers s'.restriction ipc s'.tr = (offers s.restriction ipc s.tr).filter fun q => !p q.1 := by
    intro ipc
    rw [h5, ht, offers_quiet hq, offers_snoc]
    cases hb : offers s.restriction ipc s.tr with
    | none => exact hm0 _ _
    | some qn =>
      obtain ⟨q, ns⟩ := qn
      rw [hm _ _ _ _ (h.known ipc q ns hb).1]
      cases hpq : p q <;> simp [Option.filter, hpq]
  obtain ⟨g1, g2, g3, g4, g5, g6, g7⟩ := h
  refine ⟨?_, ?_, ?_, by rw [h4, g4], ?_, ?_, ?_⟩
  · intro i q hq'
    rw [hp, Option.filter_eq_some_iff] at hq'
    obtain ⟨ns, hn, hls⟩ := g1 i q hq'.1
    refine ⟨ns, ?_, fun n hl' => hls n ((hl n i).mp hl').1⟩
    rw [ho, hn, Option.filter_eq_some_iff]
    exact ⟨rfl, hq'.2⟩
  · intro ipc q ns hn
    rw [ho, Option.filter_eq_some_iff] at hn
    obtain ⟨hq1, i, hi⟩ := g2 ipc q ns hn.1
    exact ⟨hq1, i, by rw [hp, hi, Option.filter_eq_some_iff]; exact ⟨rfl, hn.2⟩⟩
  · intro i hi' n hl'
    rw [h3] at hi'
    exact g3 i (List.mem_filter.mp hi').1 n ((hl n i).mp hl').1
  · intro hex
    obtain ⟨hd, hx⟩ := g5 hex
    refine ⟨by rw [h3]; simp [State.without, hd], ?_⟩
    intro i q ns hq' hn n hnn
    rw [hp, Option.filter_eq_some_iff] at hq'
    rw [ho, Option.filter_eq_some_iff] at hn
    refine (hl n i).mpr ⟨hx i q ns hq'.1 hn.1 n hnn, ?_⟩
    intro hmem
    obtain ⟨x, hx', hpx⟩ := mem_seqIds.mp hmem
    obtain ⟨y, hy, hyq⟩ := procs_some.mp hq'.1
    rw [hx'] at hy; cases hy
    rw [hyq] at hpx
    simp [hpx] at hq'
  · rw [h5, ht]
    exact (g6.snoc (e := .recv m) trivial).append fun a e he => (hq e he).2.1 _ a
  · intro hex
    rw [h5, ht]
    exact ((g7 hex).snoc (e := .recv m) trivial).append fun a e he => (hq e he).2.2 _ a

theorem addSeqServices_frame (i : Nat) (s : State) (add : List Nat) : add.foldl (State.addSeqService i) s = { s with services := (add.foldl (State.addSeqService i) s).services, seq := (add.foldl (State.addSeqService i) s).seq } := by
  induction add generalizing s with
  | nil => rfl
  | cons n add ih => rw [List.foldl_cons, ih, addSeqService_eq]

theorem addSeqServices_procs (i : Nat) (s : State) (add : List Nat) (j : Nat) : (add.foldl (State.addSeqService i) s).procs j = s.procs j := by
  induction add generalizing s with
  | nil => rfl
  | cons n add ih =>
    rw [List.foldl_cons, ih]
    refine procs_modify (i := i) (f := fun x => { x with services := x.services ++ [n] }) ?_ (fun _ => rfl) j
    rw [addSeqService_eq]

theorem oquiet_shutdown (a b : Nat) (c : List Proc) : OQuiet (.shutdown a b c) := ⟨fun _ _ _ => rfl, fun _ _ => trivial, fun _ _ => trivial⟩
theorem oquiet_error (a : Nat) (b : Option Nat) (c : Code) : OQuiet (.error a b c) := ⟨fun _ _ _ => rfl, fun _ _ => trivial, fun _ _ => trivial⟩
theorem oquiet_assassinate (a : Nat) : OQuiet (.assassinate a) := ⟨fun _ _ _ => rfl, fun _ _ => trivial, fun _ _ => trivial⟩
theorem oquiet_timedOut (a b : Nat) : OQuiet (.timedOut a b) := ⟨fun _ _ _ => rfl, fun _ _ => trivial, fun _ _ => trivial⟩
theorem oquiet_discarded (a b : Nat) (c : Bool) : OQuiet (.discarded a b c) := ⟨fun _ _ _ => rfl, fun _ _ => trivial, fun _ _ => trivial⟩
theorem oquiet_rollback (a : Nat) : OQuiet (.rollback a) := ⟨fun _ _ _ => rfl, fun _ _ => trivial, fun _ _ => trivial⟩
theorem oquiet_absent (a b c : Nat) : OQuiet (.absent a b c) := ⟨fun _ _ _ => rfl, fun _ _ => trivial, fun _ _ => trivial⟩

theorem seqFor_procs (s : State) (p : Proc) (alias : Nat) :
    (∀ j, j ≠ (s.seqFor p alias).1 → (s.seqFor p alias).2.procs j = s.procs j) ∧
    ((∃ q, s.procs (s.seqFor p alias).1 = some q ∧ q.ipc = p.ipc ∧ (s.seqFor p alias).2.procs (s.seqFor p alias).1 = some q) ∨
     (s.procs (s.seqFor p alias).1 = none ∧ (∀ j q, s.procs j = some q → q.ipc ≠ p.ipc) ∧ (s.seqFor p alias).2.procs (s.seqFor p alias).1 = some p)) := by
  rcases seqFor_spec (s := s) p alias with ⟨x, ho, hx, hp, hg⟩ | ⟨ho, hx, hg⟩
  · refine ⟨fun j hj => ?_, .inl ⟨x.proc, ?_, hp, ?_⟩⟩
    · unfold State.procs; rw [hg, if_neg hj]
    · unfold State.procs; rw [hx]; rfl
    · unfold State.procs; rw [hg, if_pos rfl]; rfl
  · refine ⟨fun j hj => ?_, .inr ⟨?_, ?_, ?_⟩⟩
    · unfold State.procs; rw [hg, if_neg hj]
    · unfold State.procs; rw [hx]; rfl
    · intro j q hq
      obtain ⟨y, hy, rfl⟩ := procs_some.mp hq
      exact seqOf_none ho hy
    · unfold State.procs; rw [hg, if_pos rfl]; rfl

theorem OfferInv.advertised {ex : Prop} {s s' : State} (h : OfferInv ex s) (hi : Inv s) {p : Proc} {alias : Nat} {add remove : List Nat} {e : Env} {i : Nat}
    (hne : ¬ (add = [] ∧ remove = []))
    (ht : s'.tr = s.tr ++ [.recv (.advertise p alias add remove e)])
    (hp : ∀ j, j ≠ i → s'.procs j = s.procs j)
    (hpi : (∃ q, s.procs i = some q ∧ q.ipc = p.ipc ∧ s'.procs i = some q) ∨ (s.procs i = none ∧ (∀ j q, s.procs j = some q → q.ipc ≠ p.ipc) ∧ s'.procs i = some p))
    (hl : ∀ n j, Lists s' n j → (Lists s n j ∨ (j = i ∧ n ∈ add.filter (permitted s.restriction alias))) ∧ ¬ (j = i ∧ n ∈ remove))
    (hl' : ex → ∀ n j, ((Lists s n j ∨ (j = i ∧ n ∈ add.filter (permitted s.restriction alias))) ∧ ¬ (j = i ∧ n ∈ remove)) → Lists s' n j)
    (hd : ∀ j ∈ s'.disabled, ∀ n, ¬ Lists s' n j) (hd' : ex → s'.disabled = [])
    (h4 : s'.fatal = s.fatal) (h5 : s'.restriction = s.restriction) : OfferInv ex s' := by
  obtain ⟨g1, g2, g3, g4, g5, g6, g7⟩ := h
  have ho : ∀ ipc, ipc ≠ p.ipc → offers s'.restriction ipc s'.tr = offers s.restriction ipc s.tr := by
    intro ipc hipc
    rw [h5, ht, offers_snoc]
    simp only [offerStep, hne, if_false]
    rw [if_neg fun h => hipc h.symm]
  -- what the instance offers now
  have hoi : ∃ q ns, s'.procs i = some q ∧ q.ipc = p.ipc ∧ (∀ n, Lists s n i → n ∈ ns) ∧ (ex → ∀ n ∈ ns, Lists s n i) ∧
      offers s'.restriction p.ipc s'.tr = some (q, (ns ++ add.filter (permitted s.restriction alias)).filter fun n => n ∉ remove) := by
    rcases hpi with ⟨q, hq, hqi, hq'⟩ | ⟨hn, hno, hq'⟩
    · obtain ⟨ns, hns, hls⟩ := g1 i q hq
      rw [hqi] at hns
      refine ⟨q, ns, hq', hqi, hls, fun hex n hnn => (g5 hex).2 i q ns hq (by rw [hqi]; exact hns) n hnn, ?_⟩
      rw [h5, ht, offers_snoc, hns]
      simp only [offerStep, hne, if_false, if_true, Option.getD_some]
    · refine ⟨p, [], hq', rfl, ?_, (fun _ n hn => absurd hn (by simp)), ?_⟩
      · rintro n ⟨v, hv, -, hj⟩
        obtain ⟨x, hx, -⟩ := hi.seqs v hv i hj
        unfold State.procs at hn
        rw [hx] at hn; cases hn
      · have hnone : offers s.restriction p.ipc s.tr = none := by
          cases hb : offers s.restriction p.ipc s.tr with
          | none => rfl
          | some qn =>
            obtain ⟨q, ns⟩ := qn
            obtain ⟨hq1, j, hj⟩ := g2 _ q ns hb
            exact absurd hq1 (hno j q hj)
        rw [h5, ht, offers_snoc, hnone]
        simp only [offerStep, hne, if_false, if_true, Option.getD_none]
  obtain ⟨q, ns, hqi, hqip, hls, hls', hoq⟩ := hoi
  have hother : ∀ j r, j ≠ i → s'.procs j = some r → r.ipc ≠ p.ipc := by
    intro j r hj hr hip
    rw [hp j hj] at hr
    rcases hpi with ⟨q', hq', hqi', -⟩ | ⟨-, hno, -⟩
    · obtain ⟨x, hx, hxr⟩ := procs_some.mp hr
      obtain ⟨y, hy, hyr⟩ := procs_some.mp hq'
      exact hj (hi.seqIpc j i x y hx hy (by rw [hxr, hyr, hip, hqi']))
    · exact hno j r hr hip
  refine ⟨?_, ?_, hd, by rw [h4, g4], ?_, ?_, ?_⟩
  · intro j r hr
    by_cases hj : j = i
    · subst hj
      rw [hqi] at hr; cases hr
      rw [hqip]
      refine ⟨_, hoq, fun n hn => ?_⟩
      obtain ⟨h1, h2⟩ := hl n j hn
      refine List.mem_filter.mpr ⟨?_, by simpa using fun h => h2 ⟨rfl, h⟩⟩
      rcases h1 with h1 | ⟨-, h1⟩
      · exact List.mem_append_left _ (hls n h1)
      · exact List.mem_append_right _ h1
    · have hrp := hother j r hj hr
      rw [hp j hj] at hr
      obtain ⟨ms, hms, hlm⟩ := g1 j r hr
      refine ⟨ms, by rw [ho _ hrp, hms], fun n hn => ?_⟩
      rcases (hl n j hn).1 with h1 | ⟨h1, -⟩
      · exact hlm n h1
      · exact absurd h1 hj
  · intro ipc r ms hr
    by_cases hip : ipc = p.ipc
    · subst hip
      rw [hoq] at hr
      simp only [Option.some.injEq, Prod.mk.injEq] at hr
      obtain ⟨rfl, -⟩ := hr
      exact ⟨hqip, i, hqi⟩
    · rw [ho _ hip] at hr
      obtain ⟨hr1, j, hj⟩ := g2 ipc r ms hr
      refine ⟨hr1, j, ?_⟩
      by_cases hji : j = i
      · subst hji
        rcases hpi with ⟨q', hq', hqi', -⟩ | ⟨hn, -, -⟩
        · rw [hj] at hq'; cases hq'; exact absurd (hr1.symm.trans hqi') hip
        · rw [hn] at hj; cases hj
      · rw [hp j hji, hj]
  · intro hex
    refine ⟨hd' hex, fun j r ms hr hms n hn => ?_⟩
    by_cases hj : j = i
    · subst hj
      rw [hqi] at hr; cases hr
      rw [hqip, hoq] at hms
      simp only [Option.some.injEq, Prod.mk.injEq, true_and] at hms
      subst hms
      obtain ⟨h1, h2⟩ := List.mem_filter.mp hn
      refine hl' hex n j ⟨?_, fun h => by simp [h.2] at h2⟩
      rcases List.mem_append.mp h1 with h1 | h1
      · exact .inl (hls' hex n h1)
      · exact .inr ⟨rfl, h1⟩
    · have hrp := hother j r hj hr
      rw [hp j hj] at hr
      rw [ho _ hrp] at hms
      exact hl' hex n j ⟨.inl ((g5 hex).2 j r ms hr hms n hn), fun h => hj h.1⟩
  · rw [h5, ht]; exact g6.snoc trivial
  · intro hex; rw [h5, ht]; exact (g7 hex).snoc trivial

theorem notifyTM_frame (s : State) (p : Proc) (t : Option Nat) : (s.notifyTM p t).disabled = s.disabled ∧ (s.notifyTM p t).fatal = s.fatal ∧ (s.notifyTM p t).restriction = s.restriction := by
  unfold State.notifyTM
  split
  · exact ⟨rfl, rfl, rfl⟩
  · split <;> exact ⟨rfl, rfl, rfl⟩

theorem ackPrep_frame (s : State) (p : Proc) (corr : Nat) (t : Option Nat) (e : Env) : (s.ackPrep p corr t e).disabled = s.disabled ∧ (s.ackPrep p corr t e).fatal = s.fatal ∧ (s.ackPrep p corr t e).restriction = s.restriction := by
  unfold State.ackPrep
  exact notifyTM_frame _ p t

theorem again_services {s : State} (h : Inv s) (ls : List Lookup) (e : Env) : (s.again ls e).services = s.services := by
  have key : Inv (s.again ls e) ∧ (s.again ls e).services = s.services := by
    refine again_ind (P := fun t => Inv t ∧ t.services = s.services) ?_ ls ⟨h, rfl⟩
    intro t r ht
    refine ⟨ht.1.lookup r e, ?_⟩
    have := lookup_outcome ht.1 r e
    rw [← ht.2]
    generalize t.lookup r e = t' at this
    cases this with
    | discover => exact (discover_same t r e).services
    | _ => rfl
  exact key.2

theorem Inv3.step {ex : Prop} {s : State} (h : Inv3 ex s) (m : In) (hm : ex → m.isPrepare = false) : Inv3 ex (s.step m) := by
  refine ⟨h.1.step m, ?_⟩
  obtain ⟨hi, hu⟩ := h
  have hi' : Inv (s.emit (.recv m)) := hi.same ⟨rfl, rfl, rfl⟩
  have base : (∀ res ipc b, offerStep res ipc b (.recv m) = b) → Inv3 ex (s.emit (.recv m)) := fun hn =>
    ⟨hi', hu.keeps (es := [.recv m]) rfl (by intro e he; rw [List.mem_singleton] at he; subst he; exact ⟨hn, fun _ _ => trivial, fun _ _ => trivial⟩) (OSame.of_seq rfl rfl rfl rfl rfl)⟩
  cases m with
  | advertise p alias add remove e =>
    show OfferInv ex ((s.emit _).advertise p alias add remove e)
    rw [advertise_eq]
    split
    · rename_i hc
      rw [remove_eq hi']
      have hc' : add = [] ∧ remove = [] := by simpa using hc
      refine hu.without hi (.advertise p alias add remove e) (p := fun q => q.pid == p.pid) (es := []) (by rw [List.append_nil]; rfl) (by simp) ?_ ?_ rfl rfl rfl rfl rfl
      · intro res ipc q ns hq
        simp only [offerStep, hc', and_self, if_true]
        cases hb : q.pid == p.pid <;> simp [Option.filter, hb, bne]
      · intro res ipc
        simp only [offerStep, hc', and_self, if_true]
        rfl
    · rename_i hc
      have hc' : ¬ (add = [] ∧ remove = []) := by simpa using hc
      have hsp := seqFor_procs (s.emit (.recv (.advertise p alias add remove e))) p alias
      have hfr := seqFor_eq (s.emit (.recv (.advertise p alias add remove e))) p alias
      have hall : ∀ n, (s.emit (.recv (.advertise p alias add remove e))).allowed alias n = permitted s.restriction alias n := allowed_eq _ alias
      have hsi := seqFor_isSome (s.emit (.recv (.advertise p alias add remove e))) p alias
      have hsf := hi'.seqFor p alias
      simp only [hall]
      generalize (s.emit (.recv (.advertise p alias add remove e))).seqFor p alias = r at hsp hfr hsi hsf
      obtain ⟨i, t⟩ := r
      dsimp only at hsp hfr hsi hsf ⊢
      have hpe : ∀ j, State.procs (s.emit (.recv (.advertise p alias add remove e))) j = s.procs j := fun _ => rfl
      simp only [hpe] at hsp
      have hle : ∀ n j, Lists t n j ↔ Lists s n j := fun n j => Lists.of_services (by rw [hfr]; rfl)
      split
      · rename_i hdis
        have hds : i ∈ s.disabled := by rw [hfr] at hdis; exact hdis
        refine hu.advertised hi hc' (i := i) (e := e) (alias := alias) ?_ hsp.1 hsp.2 ?_ ?_ ?_ ?_ ?_ ?_
        · rw [hfr]; rfl
        · intro n j hl
          have hl := (hle n j).mp hl
          exact ⟨.inl hl, fun h => hu.disabled i hds n (h.1 ▸ hl)⟩
        · intro hex; rw [(hu.exact hex).1] at hds; cases hds
        · intro j hj n hl
          have hj' : j ∈ s.disabled := by
            have := List.mem_of_mem_erase hj
            rw [hfr] at this; exact this
          exact hu.disabled j hj' n ((hle n j).mp hl)
        · intro hex; rw [(hu.exact hex).1] at hds; cases hds
        · rw [hfr]; rfl
        · rw [hfr]; rfl
      · rename_i hdis
        have hdis' : i ∉ s.disabled := by rw [hfr] at hdis; exact hdis
        refine (Inv3.takePending ⟨?_, ?_⟩ _ _).2
        · exact (hsf.addSeqServices hsi _).removeSeqServices _ _
        · have hfr2 := addSeqServices_frame i t (add.filter fun n => permitted s.restriction alias n)
          have hll : ∀ n j, Lists (((add.filter fun n => permitted s.restriction alias n).foldl (State.addSeqService i) t).removeSeqServices i remove) n j ↔ ((Lists s n j ∨ (j = i ∧ n ∈ add.filter (permitted s.restriction alias))) ∧ ¬ (j = i ∧ n ∈ remove)) := by
            intro n j
            rw [lists_removeSeqServices, lists_addSeqServices, hle]
          have hpp : ∀ j, (((add.filter fun n => permitted s.restriction alias n).foldl (State.addSeqService i) t).removeSeqServices i remove).procs j = t.procs j := by
            intro j
            refine Eq.trans ?_ (addSeqServices_procs i t (add.filter fun n => permitted s.restriction alias n) j)
            exact procs_modify (i := i) (f := fun x => { x with services := x.services.filter fun n => n ∉ ((((add.filter fun n => permitted s.restriction alias n).foldl (State.addSeqService i) t).services.map (·.name)).filter fun n => n ∈ remove) }) rfl (fun _ => rfl) j
          refine hu.advertised hi hc' (i := i) (e := e) (p := p) (alias := alias) ?_ ?_ ?_ ?_ ?_ ?_ ?_ ?_ ?_
          · show ((add.filter fun n => permitted s.restriction alias n).foldl (State.addSeqService i) t).tr = _
            rw [hfr2, hfr]; rfl
          · intro j hj; rw [hpp, hsp.1 j hj]
          · simp only [hpp]; exact hsp.2
          · intro n j hl; exact (hll n j).mp hl
          · intro _ n j hl; exact (hll n j).mpr hl
          · intro j hj n hl
            have hj' : j ∈ s.disabled := by
              change j ∈ ((add.filter fun n => permitted s.restriction alias n).foldl (State.addSeqService i) t).disabled at hj
              rw [hfr2, hfr] at hj; exact hj
            rcases ((hll n j).mp hl).1 with h1 | ⟨h1, -⟩
            · exact hu.disabled j hj' n h1
            · rw [h1] at hj'; exact hdis' hj'
          · intro hex
            show ((add.filter fun n => permitted s.restriction alias n).foldl (State.addSeqService i) t).disabled = []
            rw [hfr2, hfr]; exact (hu.exact hex).1
          · show ((add.filter fun n => permitted s.restriction alias n).foldl (State.addSeqService i) t).fatal = _
            rw [hfr2, hfr]; rfl
          · show ((add.filter fun n => permitted s.restriction alias n).foldl (State.addSeqService i) t).restriction = _
            rw [hfr2, hfr]; rfl
  | cadvertise p alias order add remove e =>
    show OfferInv ex ((s.emit _).cadvertise p alias order add remove e)
    have hb := base (fun _ _ _ => rfl)
    rw [cadvertise_eq, takeReady_eq]
    refine (Inv3.again ⟨?_, ?_⟩ _ _).2
    · exact Inv.same (((hb.1.conFor p alias order).addConServices (conFor_isSome _ p alias order) order _).removeConServices _ _) ⟨rfl, rfl, rfl⟩
    · have hfr := addConServices_frame ((s.emit (.recv (.cadvertise p alias order add remove e))).conFor p alias order).1 order ((s.emit (.recv (.cadvertise p alias order add remove e))).conFor p alias order).2 (add.filter fun n => (s.emit (.recv (.cadvertise p alias order add remove e))).allowed alias n.1)
      have hcf := conFor_eq (s.emit (.recv (.cadvertise p alias order add remove e))) p alias order
      refine hb.2.keeps (es := []) ?_ (by simp) ⟨?_, ?_, ?_, ?_, ?_⟩
      · rw [hfr, hcf]; simp [State.removeConServices]
      · intro i; unfold State.procs; rw [hfr, hcf]; rfl
      · intro n i
        refine (Lists.of_services (s := ((add.filter fun n => (s.emit (.recv (.cadvertise p alias order add remove e))).allowed alias n.1).foldl (State.addConService ((s.emit (.recv (.cadvertise p alias order add remove e))).conFor p alias order).1 order) ((s.emit (.recv (.cadvertise p alias order add remove e))).conFor p alias order).2).removeConServices ((s.emit (.recv (.cadvertise p alias order add remove e))).conFor p alias order).1 remove) rfl).trans ?_
        rw [lists_removeConServices, lists_conServices, Lists.of_services (s := s.emit (.recv (.cadvertise p alias order add remove e)))]
        rw [hcf]
      · rw [hfr, hcf]; rfl
      · rw [hfr, hcf]; rfl
      · rw [hfr, hcf]; rfl
  | creset p =>
    show OfferInv ex ((s.emit _).remove _).1
    rw [remove_eq hi']
    refine hu.without hi (.creset p) (p := fun q => q.ipc == p.ipc) (es := []) (by rw [List.append_nil]; rfl) (by simp) ?_ ?_ rfl rfl rfl rfl rfl
    · intro res ipc q ns hq
      simp only [offerStep, hq]
      by_cases hb : p.ipc = ipc
      · simp [hb]
      · have hb' : ¬ ipc = p.ipc := fun h => hb h.symm
        simp [hb, hb']
    · intro res ipc
      simp only [offerStep]
      split <;> rfl
  | cinstance p alias order =>
    show OfferInv ex ((s.emit _).cinstance p alias order)
    have hb := base (fun _ _ _ => rfl)
    refine hb.2.keeps (es := []) ?_ (by simp) ⟨?_, ?_, ?_, ?_, ?_⟩
    · unfold State.cinstance; split <;> simp
    · intro i; unfold State.cinstance; split <;> rfl
    · intro n i; exact lists_cinstance _ _ _ _ _ _
    · unfold State.cinstance; split <;> rfl
    · unfold State.cinstance; split <;> rfl
    · unfold State.cinstance; split <;> rfl
  | lookup r e => exact ((base (fun _ _ _ => rfl)).lookup r e).2
  | discard p corr reply =>
    show OfferInv ex ((s.emit _).discard p corr reply)
    have hb := base (fun _ _ _ => rfl)
    rw [discard_eq]
    split
    · exact hb.2.keeps (es := if reply then [.discarded p.ipc corr true] else []) rfl (by cases reply <;> simp [oquiet_discarded]) (OSame.of_seq rfl rfl rfl rfl rfl)
    · refine hb.2.keeps (es := if reply then [.discarded p.ipc corr false] else []) rfl (by cases reply <;> simp [oquiet_discarded]) ⟨?_, fun _ _ => Iff.rfl, rfl, rfl, rfl⟩
      intro i
      unfold State.procs
      show (Index.get (s.seq.map _) i).map _ = (Index.get s.seq i).map _
      rw [Index.get_map]
      cases Index.get s.seq i with
      | none => rfl
      | some x =>
        simp only [Option.map_some, SeqI.discardCorr]
        split <;> rfl
  | ack p corr trid e =>
    show OfferInv ex ((s.emit _).ack p corr trid e)
    have hb := base (fun _ _ _ => rfl)
    rw [ack_eq]
    obtain ⟨es, ht, hq⟩ := ackPrep_tr (s.emit (.recv (.ack p corr trid e))) p corr trid e
    have hs := ackPrep_same (s.emit (.recv (.ack p corr trid e))) p corr trid e
    have hd : ((s.emit (.recv (.ack p corr trid e))).ackPrep p corr trid e).disabled = s.disabled ∧ ((s.emit (.recv (.ack p corr trid e))).ackPrep p corr trid e).fatal = s.fatal ∧ ((s.emit (.recv (.ack p corr trid e))).ackPrep p corr trid e).restriction = s.restriction := by
      exact ackPrep_frame _ p corr trid e
    have hpi := hi'.same hs
    have hq' : ∀ x ∈ es, OQuiet x := fun x hx => by obtain ⟨y, rfl⟩ := hq x hx; exact oquiet_rollback y
    generalize (s.emit (.recv (.ack p corr trid e))).ackPrep p corr trid e = t at ht hs hpi hd
    have ht3 : OfferInv ex t := hb.2.keeps ht hq' (OSame.of_seq hs.seq hs.services hd.1 hd.2.1 hd.2.2)
    split
    · exact ht3
    · split
      · refine ht3.keeps (es := (ackShutdown p corr t.shutdowns).2) rfl ?_ ⟨procs_modify (f := SeqI.free) rfl (fun _ => rfl), fun _ _ => Iff.rfl, rfl, rfl, rfl⟩
        intro x hx
        obtain ⟨a, b, c, rfl⟩ := ackShutdown_shutdown x hx; exact oquiet_shutdown a b c
      · refine (Inv3.takePending ⟨?_, ?_⟩ _ _).2
        · exact hpi.free _ rfl rfl rfl
        · exact ht3.keeps (es := []) (by simp [State.modifySeq]) (by simp) ⟨procs_modify (f := SeqI.free) rfl (fun _ => rfl), fun _ _ => Iff.rfl, rfl, rfl, rfl⟩
  | exit pid e =>
    show OfferInv ex ((s.emit _).exit pid e)
    rw [exit_eq hi']
    refine (Inv3.again ⟨?_, ?_⟩ _ _).2
    · exact (hi'.without fun q => q.pid == pid).same ⟨rfl, rfl, rfl⟩
    · refine hu.without hi (.exit pid e) (p := fun q => q.pid == pid) (es := (failShutdown pid s.shutdowns).2 ++ (s.callers (s.seqIds fun q => q.pid == pid)).map fun c => Ev.error c.1.ipc c.2 .serviceError) ?_ ?_ ?_ ?_ rfl rfl rfl rfl rfl
      · show ((s.tr ++ [_]) ++ _) ++ _ = _
        rw [List.append_assoc]; rfl
      · intro x hx
        rcases List.mem_append.mp hx with hx | hx
        · obtain ⟨a, b, c, rfl⟩ := failShutdown_shutdown x hx; exact oquiet_shutdown a b c
        · obtain ⟨c, -, rfl⟩ := List.mem_map.mp hx; exact oquiet_error _ _ _
      · intro res ipc q ns hq
        simp only [offerStep]
        cases hb : q.pid == pid <;> simp [Option.filter, hb, bne]
      · intro res ipc; rfl
  | prepareShutdown p corr ps e =>
    show OfferInv ex ((s.emit _).prepareShutdown p corr ps e)
    have hnex : ¬ ex := fun hex => by cases hm hex
    have hfr := prepareAll_frame (s.emit (.recv (.prepareShutdown p corr ps e))) ([], [], []) ps
    have hl := lists_prepareAll hi' ([], [], []) ps
    have hids := prepareAll_ids (s := s.emit (.recv (.prepareShutdown p corr ps e))) ([], [], []) ps
    have hinv := hi'.prepareAll ([], [], []) ps
    have hqs : ∀ ipc, (s.emit (.recv (.prepareShutdown p corr ps e))).seqOf ipc = s.seqOf ipc := fun _ => rfl
    have hlq : ∀ n j, Lists (s.emit (.recv (.prepareShutdown p corr ps e))) n j ↔ Lists s n j := fun _ _ => Iff.rfl
    simp only [hqs, hlq] at hl hids
    have h1 : OfferInv ex ((s.emit (.recv (.prepareShutdown p corr ps e))).prepareAll ([], [], []) ps).1 := by
      generalize ((s.emit (.recv (.prepareShutdown p corr ps e))).prepareAll ([], [], []) ps).1 = t at hfr hl hinv
      obtain ⟨g1, g2, g3, g4, g5, g6, g7⟩ := hu
      have htp : ∀ i, t.procs i = s.procs i := fun i => by unfold State.procs; rw [hfr]; rfl
      have htr : t.tr = s.tr ++ [.recv (.prepareShutdown p corr ps e)] := by rw [hfr]; rfl
      have hres : t.restriction = s.restriction := by rw [hfr]; rfl
      have hdis : t.disabled = s.disabled := by rw [hfr]; rfl
      refine ⟨?_, ?_, ?_, by rw [hfr]; exact g4, fun hex => absurd hex hnex, ?_, fun hex => absurd hex hnex⟩
      · intro i q hq
        rw [htp] at hq
        obtain ⟨ns, hn, hls⟩ := g1 i q hq
        rw [htr, hres, offers_snoc, hn]
        simp only [offerStep]
        split
        · rename_i hmem
          refine ⟨[], rfl, fun n hn' => ?_⟩
          obtain ⟨-, hno⟩ := (hl n i).mp hn'
          obtain ⟨x, hx, hxq⟩ := procs_some.mp hq
          obtain ⟨pp, hpp, hppi⟩ := List.mem_map.mp hmem
          refine absurd ?_ (hno pp hpp)
          cases hf : s.seqOf pp.ipc with
          | none => exact absurd (by rw [hxq, hppi]) (seqOf_none hf hx)
          | some k =>
            obtain ⟨y, hy, hyp⟩ := seqOf_some hf
            rw [hi.seqIpc k i y x hy hx (by rw [hyp, hxq, hppi])]
        · exact ⟨ns, rfl, fun n hn' => hls n ((hl n i).mp hn').1⟩
      · intro ipc q ns hn
        rw [htr, hres, offers_snoc] at hn
        simp only [offerStep] at hn
        have : ∃ ms, offers s.restriction ipc s.tr = some (q, ms) := by
          split at hn
          · obtain ⟨⟨q', ms⟩, hqm, he⟩ := Option.map_eq_some_iff.mp hn
            simp only [Prod.mk.injEq] at he
            exact ⟨ms, by rw [hqm, he.1]⟩
          · exact ⟨ns, hn⟩
        obtain ⟨ms, hms⟩ := this
        obtain ⟨hq1, i, hi⟩ := g2 ipc q ms hms
        exact ⟨hq1, i, by rw [htp, hi]⟩
      · intro i hi' n hl'
        rw [hdis] at hi'
        exact g3 i hi' n ((hl n i).mp hl').1
      · rw [htr, hres]; exact g6.snoc trivial
    -- the lookups that are tried again list the same
    have h2 : Inv3 ex ((s.emit (.recv (.prepareShutdown p corr ps e))).prepared ps e) ∧ ∀ n j, Lists ((s.emit (.recv (.prepareShutdown p corr ps e))).prepared ps e) n j ↔ Lists ((s.emit (.recv (.prepareShutdown p corr ps e))).prepareAll ([], [], []) ps).1 n j := by
      unfold State.prepared
      simp only
      split
      · exact ⟨⟨hinv, h1⟩, fun _ _ => Iff.rfl⟩
      · refine ⟨?_, ?_⟩
        · apply Inv3.again
          exact ⟨hinv.same ⟨rfl, rfl, rfl⟩, h1.keeps (es := []) (by simp) (by simp) (OSame.of_seq rfl rfl rfl rfl rfl)⟩
        · intro n j
          refine Lists.of_services ?_
          refine (again_services ?_ _ _).trans rfl
          exact hinv.same ⟨rfl, rfl, rfl⟩
    rw [prepareShutdown_eq]
    simp only
    generalize (s.emit (.recv (.prepareShutdown p corr ps e))).prepared ps e = t at h2
    obtain ⟨⟨-, ht⟩, htl⟩ := h2
    have hbusy : ∀ i ∈ ((s.emit (.recv (.prepareShutdown p corr ps e))).prepareAll ([], [], []) ps).2.2.1, ∀ n, ¬ Lists t n i := by
      intro i hi' n hl'
      rcases hids i hi' with h | ⟨q, hq, h⟩
      · cases h
      · exact ((hl n i).mp ((htl n i).mp hl')).2 q hq h
    have hemit : OfferInv ex (t.emit (.shutdown p.ipc corr (((s.emit (.recv (.prepareShutdown p corr ps e))).prepareAll ([], [], []) ps).2.2.2 ++ (((s.emit (.recv (.prepareShutdown p corr ps e))).prepareAll ([], [], []) ps).2.2.1.filter fun i => !t.isBusy i).filterMap fun i => (Index.get t.seq i).map (·.proc)))) :=
      ht.keeps rfl (by simp [oquiet_shutdown]) (OSame.of_seq rfl rfl rfl rfl rfl)
    have hdis : ∀ u : State, OfferInv ex u → u.services = t.services → ∀ sh, OfferInv ex { u with shutdowns := sh, disabled := u.disabled ++ ((s.emit (.recv (.prepareShutdown p corr ps e))).prepareAll ([], [], []) ps).2.2.1.filter fun i => t.isBusy i } := by
      intro u hu' hus sh
      obtain ⟨g1, g2, g3, g4, g5, g6, g7⟩ := hu'
      refine ⟨g1, g2, ?_, g4, fun hex => absurd hex hnex, g6, fun hex => absurd hex hnex⟩
      intro i hi' n hl'
      rcases List.mem_append.mp hi' with h | h
      · exact g3 i h n hl'
      · refine hbusy i (List.mem_filter.mp h).1 n ((Lists.of_services ?_).mp hl')
        exact hus
    split <;> split
    · exact ht
    · exact hemit
    · exact hdis t ht rfl _
    · exact hdis _ hemit rfl _
  | alarm e =>
    show OfferInv ex ((s.emit _).alarm e)
    have hb := base (fun _ _ _ => rfl)
    rw [alarm_eq]
    have h1 : OfferInv ex ((s.emit (.recv (.alarm e))).alarmPrep e) := hb.2.keeps (es := []) (by simp [State.alarmPrep]) (by simp) (OSame.of_seq rfl rfl rfl rfl rfl)
    have h2 : ∀ ds : List Entry, OfferInv ex (ds.foldl State.expire ((s.emit (.recv (.alarm e))).alarmPrep e)) := by
      intro ds
      refine expire_ind (P := OfferInv ex) ?_ ds h1
      intro t d ht
      have := expire_cases t d
      generalize t.expire d = t' at this
      cases this with
      | nothing => exact ht
      | lookup l _ => exact ht.keeps rfl (by simp [oquiet_timedOut]) (OSame.of_seq rfl rfl rfl rfl rfl)
      | noCaller _ i x h1 h2 h3 h4 => exact ht.keeps (es := []) (by simp) (by simp) ⟨procs_modify rfl (fun _ => rfl), fun _ _ => Iff.rfl, rfl, rfl, rfl⟩
      | caller _ i x c h1 h2 h3 h4 =>
        exact ht.keeps rfl (by simp [oquiet_error, oquiet_assassinate]) ⟨procs_modify rfl (fun _ => rfl), fun _ _ => Iff.rfl, by simp [ht.fatal], rfl, rfl⟩
    split
    · exact (h2 _).keeps (es := []) (by simp [State.setTimer]) (by simp) (OSame.of_seq rfl rfl rfl rfl rfl)
    · exact h2 _
  | discovered corr e =>
    show OfferInv ex ((s.emit _).discovered corr e)
    have hb := base (fun _ _ _ => rfl)
    rw [discovered_eq]
    split
    · exact hb.2
    · split
      · refine (Inv3.lookup ⟨?_, ?_⟩ _ _).2
        · exact hb.1.same ⟨rfl, rfl, rfl⟩
        · exact hb.2.keeps (es := []) (by simp) (by simp) (OSame.of_seq rfl rfl rfl rfl rfl)
      · split
        · exact hb.2
        · exact hb.2.keeps rfl (by simp [oquiet_absent]) (OSame.of_seq rfl rfl rfl rfl rfl)
  | disassociate t => exact (base (fun _ _ _ => rfl)).2.keeps (es := []) (by simp [State.handle, State.step]) (by simp) (OSame.of_seq rfl rfl rfl rfl rfl)
  | undelivered ipc =>
    have hb := base (fun _ _ _ => rfl)
    show OfferInv ex (match (s.emit (.recv (.undelivered ipc))).seqOf ipc with | some i => (s.emit (.recv (.undelivered ipc))).modifySeq i SeqI.free | none => s.emit (.recv (.undelivered ipc)))
    cases hf : (s.emit (.recv (.undelivered ipc))).seqOf ipc with
    | none => exact hb.2
    | some i => exact hb.2.keeps (es := []) (by simp [State.modifySeq]) (by simp) ⟨procs_modify (f := SeqI.free) rfl (fun _ => rfl), fun _ _ => Iff.rfl, rfl, rfl, rfl⟩

theorem Inv3.init {ex : Prop} (c : Config) (hf : c.fatal = false) : Inv3 ex (State.init c) := by
  refine ⟨Inv.init c, ?_, ?_, ?_, hf, ?_, AllGood.nil, fun _ => AllGood.nil⟩
  · intro i p h; simp [State.procs, State.init] at h
  · intro ipc q ns h; cases h
  · intro i h; cases h
  · intro _; exact ⟨rfl, fun i p ns h => by simp [State.procs, State.init] at h⟩

theorem Inv3.run {ex : Prop} {s : State} (h : Inv3 ex s) (is : List In) (hm : ex → ∀ m ∈ is, m.isPrepare = false) : Inv3 ex (s.run is) := by
  unfold State.run
  induction is generalizing s with
  | nil => exact h
  | cons i is ih => exact ih (h.step i fun hex => hm hex i List.mem_cons_self) fun hex m hmm => hm hex m (List.mem_cons_of_mem _ hmm)

end Casual.Service
