import Verif.Service.Offer
/-! The trace and the services: concurrent instances. -/
namespace Casual.Service

/-- Who the concurrent instances are. -/
def State.cprocs (s : State) (i : Nat) : Option Proc := (Index.get s.con i).map (·.proc)

theorem cprocs_some {s : State} {i : Nat} {p : Proc} : s.cprocs i = some p ↔ ∃ x, Index.get s.con i = some x ∧ x.proc = p := by
  unfold State.cprocs
  rw [Option.map_eq_some_iff]

/-- The concurrent instance handed out is one of the best. -/
def GoodBest (res : List (Nat × List Nat)) (a : List Ev) : Ev → Prop
  | .idle r .concurrent t _ => Best res a t.ipc t r.name
  | _ => True

/-- If one of the best has been handed out for the transaction, then such a one is handed out. -/
def GoodAff (res : List (Nat × List Nat)) (a : List Ev) : Ev → Prop
  | .idle r .concurrent p _ => ∀ t, r.gtrid = some t → (∃ ipc q, Best res a ipc q r.name ∧ ipc ∈ handed t a) → p.ipc ∈ handed t a
  | _ => True

/-- The instances associated with a transaction. -/
def State.assocOf (s : State) (t : Nat) : List Nat :=
  match s.assoc.find? fun a => a.1 == t with
  | some a => a.2
  | none => []

structure CInv (st : Prop) (P : Proc → Prop) (s : State) : Prop where
  lists : ∀ i p, s.cprocs i = some p → ∃ os, coffers s.restriction p.ipc s.tr = some (p, os) ∧ ∀ n o h, CLists s n ⟨i, o, h⟩ ↔ (⟨n, o, h⟩ : Offer) ∈ os
  known : ∀ ipc q os, coffers s.restriction ipc s.tr = some (q, os) → q.ipc = ipc ∧ ∃ i, s.cprocs i = some q
  good : AllGood (GoodBest s.restriction) s.tr
  stays : st → ∀ i p, s.cprocs i = some p → P p
  aff : st → ∀ t i p, s.cprocs i = some p → (i ∈ s.assocOf t ↔ p.ipc ∈ handed t s.tr)
  assocLive : st → ∀ t, ∀ i ∈ s.assocOf t, ∃ p, s.cprocs i = some p
  handedLive : st → ∀ t, ∀ ipc ∈ handed t s.tr, ∃ i p, s.cprocs i = some p ∧ p.ipc = ipc
  goodAff : st → AllGood (GoodAff s.restriction) s.tr

/-- Not about what concurrent instances offer, or that one is handed out. -/
def CQuiet (e : Ev) : Prop := (∀ res ipc b, coffersStep res ipc b e = b) ∧ (∀ res a, GoodBest res a e) ∧ (∀ res a, GoodAff res a e) ∧ ∀ t b, handedStep t b e = b

theorem coffers_snoc (res : List (Nat × List Nat)) (ipc : Nat) (tr : List Ev) (e : Ev) : coffers res ipc (tr ++ [e]) = coffersStep res ipc (coffers res ipc tr) e := by
  simp [coffers]

theorem handed_snoc (t : Nat) (tr : List Ev) (e : Ev) : handed t (tr ++ [e]) = handedStep t (handed t tr) e := by
  simp [handed]

theorem coffers_quiet {res : List (Nat × List Nat)} {ipc : Nat} {tr es : List Ev} (h : ∀ e ∈ es, CQuiet e) : coffers res ipc (tr ++ es) = coffers res ipc tr := by
  induction es generalizing tr with
  | nil => simp
  | cons e es ih =>
    rw [show tr ++ e :: es = (tr ++ [e]) ++ es by simp, ih (fun x hx => h x (List.mem_cons_of_mem _ hx)), coffers_snoc, (h e List.mem_cons_self).1]

theorem handed_quiet {t : Nat} {tr es : List Ev} (h : ∀ e ∈ es, CQuiet e) : handed t (tr ++ es) = handed t tr := by
  induction es generalizing tr with
  | nil => simp
  | cons e es ih =>
    rw [show tr ++ e :: es = (tr ++ [e]) ++ es by simp, ih (fun x hx => h x (List.mem_cons_of_mem _ hx)), handed_snoc, (h e List.mem_cons_self).2.2.2]

/-- The same concurrent instances are listed. -/
structure CSame (s s' : State) : Prop where
  cprocs : ∀ i, s'.cprocs i = s.cprocs i
  lists : ∀ n c, CLists s' n c ↔ CLists s n c
  restriction : s'.restriction = s.restriction
  assoc : s'.assoc = s.assoc

theorem CSame.trans {s s' s'' : State} (h : CSame s s') (h' : CSame s' s'') : CSame s s'' :=
  ⟨fun i => (h'.cprocs i).trans (h.cprocs i), fun n c => (h'.lists n c).trans (h.lists n c), h'.restriction.trans h.restriction, h'.assoc.trans h.assoc⟩

theorem CSame.of_con {s s' : State} (h1 : s'.con = s.con) (h2 : s'.services = s.services) (h3 : s'.restriction = s.restriction) (h4 : s'.assoc = s.assoc) : CSame s s' :=
  ⟨fun i => by unfold State.cprocs; rw [h1], fun n c => CLists.of_services h2, h3, h4⟩

theorem assocOf_congr {s s' : State} (h : s'.assoc = s.assoc) (t : Nat) : s'.assocOf t = s.assocOf t := by
  unfold State.assocOf; rw [h]

theorem CInv.keeps {st : Prop} {P : Proc → Prop} {s s' : State} (h : CInv st P s) {es : List Ev} (ht : s'.tr = s.tr ++ es) (hq : ∀ e ∈ es, CQuiet e) (hs : CSame s s') : CInv st P s' := by
  obtain ⟨e1, e2, e3, e4⟩ := hs
  obtain ⟨h1, h2, h3, h4, h5, h6, h7, h8⟩ := h
  have ho : ∀ ipc, coffers s'.restriction ipc s'.tr = coffers s.restriction ipc s.tr := fun ipc => by rw [e3, ht, coffers_quiet hq]
  have hh : ∀ t, handed t s'.tr = handed t s.tr := fun t => by rw [ht, handed_quiet hq]
  refine ⟨?_, ?_, ?_, ?_, ?_, ?_, ?_, ?_⟩
  · intro i p hp
    rw [e1] at hp
    obtain ⟨os, hn, hl⟩ := h1 i p hp
    exact ⟨os, by rw [ho, hn], fun n o h => (e2 n _).trans (hl n o h)⟩
  · intro ipc q os hn
    rw [ho] at hn
    obtain ⟨hq1, i, hi⟩ := h2 ipc q os hn
    exact ⟨hq1, i, by rw [e1, hi]⟩
  · rw [e3, ht]; exact h3.append fun a e he => (hq e he).2.1 _ a
  · intro hst i p hp
    rw [e1] at hp; exact h4 hst i p hp
  · intro hst t i p hp
    rw [e1] at hp
    rw [hh, assocOf_congr e4]; exact h5 hst t i p hp
  · intro hst t i hi
    rw [assocOf_congr e4] at hi
    obtain ⟨p, hp⟩ := h6 hst t i hi
    exact ⟨p, by rw [e1, hp]⟩
  · intro hst t ipc hi
    rw [hh] at hi
    obtain ⟨i, p, hp, hpi⟩ := h7 hst t ipc hi
    exact ⟨i, p, by rw [e1, hp], hpi⟩
  · intro hst
    rw [e3, ht]; exact (h8 hst).append fun a e he => (hq e he).2.2.1 _ a

/-- What the invariant says about offers and lists. -/
theorem CInv.offered {st : Prop} {P : Proc → Prop} {s : State} (h : CInv st P s) {ipc : Nat} {p : Proc} {n : Nat} {o : Offer} :
    Offered s.restriction s.tr ipc p n o ↔ p.ipc = ipc ∧ o.name = n ∧ ∃ i, s.cprocs i = some p ∧ CLists s n ⟨i, o.order, o.hops⟩ := by
  constructor
  · rintro ⟨os, ho, hm, hn⟩
    obtain ⟨hip, i, hi⟩ := h.known ipc p os ho
    obtain ⟨os', ho', hl⟩ := h.lists i p hi
    rw [hip, ho] at ho'; cases ho'
    refine ⟨hip, hn, i, hi, (hl n _ _).mpr ?_⟩
    rw [← hn]; exact hm
  · rintro ⟨hip, hn, i, hi, hl⟩
    obtain ⟨os, ho, hl'⟩ := h.lists i p hi
    refine ⟨os, by rw [← hip]; exact ho, ?_, hn⟩
    have := (hl' n _ _).mp hl
    rw [← hn] at this; exact this

theorem CInv.best {st : Prop} {P : Proc → Prop} {s : State} (h : CInv st P s) (hi : Inv s) {ipc : Nat} {p : Proc} {v : Svc} (hv : v ∈ s.services) :
    Best s.restriction s.tr ipc p v.name ↔ p.ipc = ipc ∧ ∃ i c, s.cprocs i = some p ∧ c.id = i ∧ c ∈ prioritized v.cons := by
  have cl : ∀ c, CLists s v.name c ↔ c ∈ v.cons := by
    intro c
    constructor
    · rintro ⟨w, hw, hn, hc⟩
      rw [← eq_of_nodup_map hi.names hw hv hn]; exact hc
    · exact fun hc => ⟨v, hv, rfl, hc⟩
  constructor
  · rintro ⟨o, ho, hmin⟩
    obtain ⟨hip, hn, i, hpi, hl⟩ := h.offered.mp ho
    refine ⟨hip, i, ⟨i, o.order, o.hops⟩, hpi, rfl, (mem_prioritized (hi.sorted v hv)).mpr ⟨(cl _).mp hl, ?_⟩⟩
    intro y hy
    obtain ⟨x, hx⟩ := hi.cons v hv y hy
    have hxp : s.cprocs y.id = some x.proc := cprocs_some.mpr ⟨x, hx, rfl⟩
    have : Offered s.restriction s.tr x.proc.ipc x.proc v.name ⟨v.name, y.order, y.hops⟩ := h.offered.mpr ⟨rfl, rfl, y.id, hxp, (cl _).mpr hy⟩
    have := hmin _ _ _ this
    simpa [Offer.le, ConE.le] using this
  · rintro ⟨hip, i, c, hpi, hci, hc⟩
    have hc' := (mem_prioritized (hi.sorted v hv)).mp hc
    refine ⟨⟨v.name, c.order, c.hops⟩, h.offered.mpr ⟨hip, rfl, i, hpi, ?_⟩, ?_⟩
    · rw [← hci]; exact (cl _).mpr hc'.1
    · intro ipc' p' o' ho'
      obtain ⟨-, -, j, -, hl⟩ := h.offered.mp ho'
      have := hc'.2 _ ((cl _).mp hl)
      simpa [Offer.le, ConE.le] using this

theorem assocOf_after (s : State) (r : Req) (i t : Nat) :
    State.assocOf { s with assoc := assocAfter s r i } t = if r.gtrid = some t ∧ i ∉ s.assocOf t then s.assocOf t ++ [i] else s.assocOf t := by
  unfold assocAfter
  cases hg : r.gtrid with
  | none => simp [State.assocOf]
  | some u =>
    simp only
    cases hf : s.assoc.find? fun a => a.1 == u with
    | some a =>
      have hau : a.1 = u := by simpa using List.find?_some hf
      have hfm : ∀ l : List (Nat × List Nat), (l.map fun b => if b.1 = u ∧ i ∉ b.2 then (b.1, b.2 ++ [i]) else b).find? (fun a => a.1 == t) = (l.find? fun a => a.1 == t).map fun b => if b.1 = u ∧ i ∉ b.2 then (b.1, b.2 ++ [i]) else b := by
        intro l
        induction l with
        | nil => rfl
        | cons b l ih =>
          rw [List.map_cons, List.find?_cons, List.find?_cons]
          have : ((if b.1 = u ∧ i ∉ b.2 then (b.1, b.2 ++ [i]) else b).1 == t) = (b.1 == t) := by split <;> rfl
          rw [this]
          cases b.1 == t
          · exact ih
          · rfl
      show (match (s.assoc.map fun b => if b.1 = u ∧ i ∉ b.2 then (b.1, b.2 ++ [i]) else b).find? (fun a => a.1 == t) with | some a => a.2 | none => []) = _
      rw [hfm]
      by_cases hut : u = t
      · subst hut
        rw [hf]
        simp only [State.assocOf, hf, Option.map_some, hau, true_and]
        split <;> rfl
      · have hut' : ¬ (some u = some t ∧ i ∉ s.assocOf t) := fun h => hut (by simpa using h.1)
        rw [if_neg hut']
        unfold State.assocOf
        cases ht : s.assoc.find? fun a => a.1 == t with
        | none => rfl
        | some b =>
          have hbt : b.1 = t := by simpa using List.find?_some ht
          have : ¬ (b.1 = u ∧ i ∉ b.2) := fun h => hut (by rw [← h.1, hbt])
          simp only [Option.map_some, if_neg this]
    | none =>
      show (match (s.assoc ++ [(u, [i])]).find? (fun a => a.1 == t) with | some a => a.2 | none => []) = _
      rw [List.find?_append]
      by_cases hut : u = t
      · subst hut
        have : s.assocOf u = [] := by unfold State.assocOf; rw [hf]
        rw [hf, this]
        simp
      · have hut' : ¬ (some u = some t ∧ i ∉ s.assocOf t) := fun h => hut (by simpa using h.1)
        rw [if_neg hut']
        unfold State.assocOf
        cases ht : s.assoc.find? fun a => a.1 == t with
        | none => simp [hut]
        | some b => simp

theorem cquiet_absent (a b c : Nat) : CQuiet (.absent a b c) := ⟨fun _ _ _ => rfl, fun _ _ => trivial, fun _ _ => trivial, fun _ _ => rfl⟩
theorem cquiet_discover (a b : Nat) : CQuiet (.discover a b) := ⟨fun _ _ _ => rfl, fun _ _ => trivial, fun _ _ => trivial, fun _ _ => rfl⟩
theorem cquiet_shutdown (a b : Nat) (c : List Proc) : CQuiet (.shutdown a b c) := ⟨fun _ _ _ => rfl, fun _ _ => trivial, fun _ _ => trivial, fun _ _ => rfl⟩
theorem cquiet_error (a : Nat) (b : Option Nat) (c : Code) : CQuiet (.error a b c) := ⟨fun _ _ _ => rfl, fun _ _ => trivial, fun _ _ => trivial, fun _ _ => rfl⟩
theorem cquiet_assassinate (a : Nat) : CQuiet (.assassinate a) := ⟨fun _ _ _ => rfl, fun _ _ => trivial, fun _ _ => trivial, fun _ _ => rfl⟩
theorem cquiet_timedOut (a b : Nat) : CQuiet (.timedOut a b) := ⟨fun _ _ _ => rfl, fun _ _ => trivial, fun _ _ => trivial, fun _ _ => rfl⟩
theorem cquiet_discarded (a b : Nat) (c : Bool) : CQuiet (.discarded a b c) := ⟨fun _ _ _ => rfl, fun _ _ => trivial, fun _ _ => trivial, fun _ _ => rfl⟩
theorem cquiet_rollback (a : Nat) : CQuiet (.rollback a) := ⟨fun _ _ _ => rfl, fun _ _ => trivial, fun _ _ => trivial, fun _ _ => rfl⟩
theorem cquiet_forward (r : Req) (p : Proc) (t : Option Int) : CQuiet (.idle r .forward p t) := ⟨fun _ _ _ => rfl, fun _ _ => trivial, fun _ _ => trivial, fun _ _ => rfl⟩
theorem cquiet_sequential (r : Req) (p : Proc) (t : Option Int) : CQuiet (.idle r .sequential p t) := ⟨fun _ _ _ => rfl, fun _ _ => trivial, fun _ _ => trivial, fun _ _ => rfl⟩

theorem CInv.outcome {st : Prop} {P : Proc → Prop} {s s' : State} (h : CInv st P s) (hi : Inv s) {r : Req} {e : Env} (o : Outcome s r e s') : CInv st P s' := by
  cases o with
  | absent => exact h.keeps rfl (by simp [cquiet_absent]) (CSame.of_con rfl rfl rfl rfl)
  | discover =>
    rw [discover_eq]
    split
    · exact h.keeps (es := [.discover r.name r.corr]) rfl (by simp [cquiet_discover]) (CSame.of_con rfl rfl rfl rfl)
    · refine h.keeps (es := [.discover r.name r.corr, .absent r.proc.ipc r.corr r.name]) ?_ (by simp [cquiet_absent, cquiet_discover]) (CSame.of_con rfl rfl rfl rfl)
      show (s.tr ++ [_]) ++ [_] = _
      simp
  | forward => exact h.keeps rfl (by simp [cquiet_forward]) (CSame.of_con rfl rfl rfl rfl)
  | pending => exact h.keeps (es := []) (by simp) (by simp) (CSame.of_con rfl rfl rfl rfl)
  | seq v i x h1 h2 h3 h4 => exact h.keeps rfl (by simp [cquiet_sequential]) (CSame.of_con rfl rfl rfl rfl)
  | con v i x h1 h2 h3 h4 h5 =>
    have hm := svc?_some h1
    have hpx : s.cprocs i = some x.proc := cprocs_some.mpr ⟨x, h3, rfl⟩
    obtain ⟨⟨c, hc, hci⟩, hpref⟩ := next_some h4
    have hbest : Best s.restriction s.tr x.proc.ipc x.proc r.name := by
      rw [← hm.2]
      exact (h.best hi hm.1).mpr ⟨rfl, i, c, hpx, hci, hc⟩
    generalize hrem : (calcDeadline v.timeout e.now r.deadline).map (fun t => t - e.now) = rem
    have hgood : GoodBest s.restriction s.tr (.idle r .concurrent x.proc rem) := hbest
    have haff : st → GoodAff s.restriction s.tr (.idle r .concurrent x.proc rem) := by
      rintro hst t ht ⟨ipc, q, hb, hin⟩
      rw [← hm.2] at hb
      obtain ⟨hip, j, d, hq, hdj, hd⟩ := (h.best hi hm.1).mp hb
      have hpr : preferred s r = s.assocOf t := by unfold preferred State.assocOf; rw [ht]; rfl
      rw [hpr] at hpref
      refine (h.aff hst t i x.proc hpx).mp (hpref ⟨d, hd, ?_⟩)
      rw [hdj]
      exact (h.aff hst t j q hq).mpr (by rw [hip]; exact hin)
    have hco : ∀ ipc, coffers s.restriction ipc (s.tr ++ [.idle r .concurrent x.proc rem]) = coffers s.restriction ipc s.tr := fun ipc => by rw [coffers_snoc]; rfl
    have hho : ∀ t, handed t (s.tr ++ [.idle r .concurrent x.proc rem]) = if r.gtrid = some t then handed t s.tr ++ [x.proc.ipc] else handed t s.tr := fun t => by rw [handed_snoc]; rfl
    obtain ⟨g1, g2, g3, g4, g5, g6, g7, g8⟩ := h
    refine ⟨?_, ?_, g3.snoc hgood, g4, ?_, ?_, ?_, fun hst => (g8 hst).snoc (haff hst)⟩
    · intro j p hj
      obtain ⟨os, ho, hl⟩ := g1 j p hj
      exact ⟨os, (hco _).trans ho, hl⟩
    · intro ipc q os ho
      exact g2 ipc q os ((hco _).symm.trans ho)
    · intro hst t j p hj
      have h0 := g5 hst t j p hj
      show j ∈ State.assocOf { s with assoc := assocAfter s r i } t ↔ p.ipc ∈ handed t (s.tr ++ [_])
      rw [assocOf_after, hho]
      have hji : j = i ↔ p.ipc = x.proc.ipc := by
        obtain ⟨y, hy, hyp⟩ := cprocs_some.mp hj
        constructor
        · intro e; subst e; rw [h3] at hy; cases hy; rw [hyp]
        · intro e; exact hi.conIpc j i y x hy h3 (by rw [hyp, e])
      by_cases hg : r.gtrid = some t
      · by_cases him : i ∈ s.assocOf t
        · rw [if_neg (fun h => h.2 him), if_pos hg, List.mem_append, List.mem_singleton, ← h0, ← hji]
          constructor
          · exact .inl
          · rintro (h | h)
            · exact h
            · rw [h]; exact him
        · rw [if_pos ⟨hg, him⟩, if_pos hg, List.mem_append, List.mem_append, List.mem_singleton, List.mem_singleton, h0, hji]
      · rw [if_neg (fun h => hg h.1), if_neg hg, h0]
    · intro hst t j hj
      change j ∈ State.assocOf { s with assoc := assocAfter s r i } t at hj
      rw [assocOf_after] at hj
      split at hj
      · rcases List.mem_append.mp hj with hj | hj
        · exact g6 hst t j hj
        · rw [List.mem_singleton] at hj; subst hj; exact ⟨_, hpx⟩
      · exact g6 hst t j hj
    · intro hst t ipc hin
      change ipc ∈ handed t (s.tr ++ [_]) at hin
      rw [hho] at hin
      split at hin
      · rcases List.mem_append.mp hin with hj | hj
        · exact g7 hst t ipc hj
        · rw [List.mem_singleton] at hj; subst hj; exact ⟨i, x.proc, hpx, rfl⟩
      · exact g7 hst t ipc hin

def Inv4 (st : Prop) (P : Proc → Prop) (s : State) : Prop := Inv s ∧ CInv st P s

section
variable {st : Prop} {P : Proc → Prop}

theorem Inv4.lookup {s : State} (h : Inv4 st P s) (r : Req) (e : Env) : Inv4 st P (s.lookup r e) :=
  ⟨h.1.lookup r e, h.2.outcome h.1 (lookup_outcome h.1 r e)⟩

theorem Inv4.again {s : State} (h : Inv4 st P s) (ls : List Lookup) (e : Env) : Inv4 st P (s.again ls e) :=
  again_ind (P := Inv4 st P) (fun _ r h => h.lookup r e) ls h

theorem Inv4.takePending {s : State} (h : Inv4 st P s) (i : Nat) (e : Env) : Inv4 st P (s.takePending i e) := by
  rw [takePending_eq]
  split
  · apply Inv4.lookup
    exact ⟨h.1.same ⟨rfl, rfl, rfl⟩, h.2.keeps (es := []) (by simp) (by simp) (CSame.of_con rfl rfl rfl rfl)⟩
  · exact h

/-- Instances are removed. -/
theorem CInv.without {s s' : State} (h : CInv st P s) (m : In) {p : Proc → Bool} {es : List Ev}
    (ht : s'.tr = (s.tr ++ [.recv m]) ++ es) (hq : ∀ e ∈ es, CQuiet e)
    (hm : ∀ res ipc q os, q.ipc = ipc → coffersStep res ipc (some (q, os)) (.recv m) = if p q then none else some (q, os))
    (hm0 : ∀ res ipc, coffersStep res ipc none (.recv m) = none)
    (hmh : ∀ t b, handedStep t b (.recv m) = b)
    (hst : st → ∀ q, P q → p q = false)
    (h1 : s'.con = (s.without p).con) (h2 : s'.services = (s.without p).services)
    (h4 : s'.assoc = s.assoc) (h5 : s'.restriction = s.restriction) : CInv st P s' := by
  have hp : ∀ i, s'.cprocs i = (s.cprocs i).filter fun q => !p q := by
    intro i
    unfold State.cprocs
    rw [h1, without_con]
    cases Index.get s.con i with
    | none => rfl
    | some x => cases hpx : p x.proc <;> simp [Option.filter, hpx]
  have hl : ∀ n c, CLists s' n c ↔ CLists s n c ∧ c.id ∉ s.conIds p := fun n c => (CLists.of_services h2).trans (clists_without s p n c)
  have ho : ∀ ipc, coffers s'.restriction ipc s'.tr = (coffers s.restriction ipc s.tr).filter fun q => !p q.1 := by
    intro ipc
    rw [h5, ht, coffers_quiet hq, coffers_snoc]
    cases hb : coffers s.restriction ipc s.tr with
    | none => exact hm0 _ _
    | some qn =>
      obtain ⟨q, ns⟩ := qn
      rw [hm _ _ _ _ (h.known ipc q ns hb).1]
      cases hpq : p q <;> simp [Option.filter, hpq]
  have hh : ∀ t, handed t s'.tr = handed t s.tr := by
    intro t
    rw [ht, handed_quiet hq, handed_snoc, hmh]
  obtain ⟨g1, g2, g3, g4, g5, g6, g7, g8⟩ := h
  have hps : st → ∀ i q, s.cprocs i = some q → s'.cprocs i = some q := by
    intro hs i q hiq
    rw [hp, hiq, Option.filter_eq_some_iff]
    exact ⟨rfl, by rw [hst hs q (g4 hs i q hiq)]; rfl⟩
  have hsp : ∀ i q, s'.cprocs i = some q → s.cprocs i = some q := by
    intro i q hiq
    rw [hp, Option.filter_eq_some_iff] at hiq; exact hiq.1
  refine ⟨?_, ?_, ?_, fun hs i q hq' => g4 hs i q (hsp i q hq'), ?_, ?_, ?_, ?_⟩
  · intro i q hq'
    rw [hp, Option.filter_eq_some_iff] at hq'
    obtain ⟨ns, hn, hls⟩ := g1 i q hq'.1
    refine ⟨ns, ?_, fun n o h => ?_⟩
    · rw [ho, hn, Option.filter_eq_some_iff]
      exact ⟨rfl, hq'.2⟩
    · rw [hl, hls n o h, and_iff_left]
      intro hmem
      obtain ⟨x, hx', hpx⟩ := mem_conIds.mp hmem
      obtain ⟨y, hy, hyq⟩ := cprocs_some.mp hq'.1
      rw [hx'] at hy; cases hy
      rw [hyq] at hpx
      simp [hpx] at hq'
  · intro ipc q ns hn
    rw [ho, Option.filter_eq_some_iff] at hn
    obtain ⟨hq1, i, hi⟩ := g2 ipc q ns hn.1
    exact ⟨hq1, i, by rw [hp, hi, Option.filter_eq_some_iff]; exact ⟨rfl, hn.2⟩⟩
  · rw [h5, ht]
    exact (g3.snoc (e := .recv m) trivial).append fun a e he => (hq e he).2.1 _ a
  · intro hs t i q hq'
    rw [hh, assocOf_congr h4]
    exact g5 hs t i q (hsp i q hq')
  · intro hs t i hi
    rw [assocOf_congr h4] at hi
    obtain ⟨q, hq'⟩ := g6 hs t i hi
    exact ⟨q, hps hs i q hq'⟩
  · intro hs t ipc hi
    rw [hh] at hi
    obtain ⟨i, q, hq', e⟩ := g7 hs t ipc hi
    exact ⟨i, q, hps hs i q hq', e⟩
  · intro hs
    rw [h5, ht]
    exact ((g8 hs).snoc (e := .recv m) trivial).append fun a e he => (hq e he).2.2.1 _ a

/-! ## Advertise -/

theorem clists_addConService {s : State} (hi : Inv s) (i : Nat) (o : Int) (a : Nat × Int × Option Int) (n : Nat) (c : ConE) :
    CLists (State.addConService i o s a) n c ↔ CLists s n c ∨ (n = a.1 ∧ c = ⟨i, o, a.2.1⟩ ∧ ∀ c', CLists s n c' → c'.id ≠ i) := by
  obtain ⟨tm, he⟩ : ∃ tm, State.addConService i o s a = { s with services := (s.insertSvc a.1 tm).services.map fun v => if v.name = a.1 then v.addCon i o a.2.1 else v } := ⟨_, addConService_eq i o s a⟩
  rw [he]
  have hin := hi.insertSvc a.1 tm
  have hkn := insertSvc_known s a.1 tm
  have hcl := fun m c => (clists_insertSvc s a.1 tm m c).symm
  rw [hcl]
  simp only [hcl]
  generalize s.insertSvc a.1 tm = u at hin hkn
  show (∃ v ∈ u.services.map (fun v => if v.name = a.1 then v.addCon i o a.2.1 else v), v.name = n ∧ c ∈ v.cons) ↔ _
  unfold CLists
  constructor
  · rintro ⟨w, hw, hn, hc⟩
    obtain ⟨v, hv, rfl⟩ := List.mem_map.mp hw
    split at hn
    · rename_i hva
      rw [if_pos hva] at hc
      rw [addCon_name] at hn
      rcases mem_addCon.mp hc with h | ⟨h1, h2⟩
      · exact .inl ⟨v, hv, hn, h⟩
      · refine .inr ⟨hn ▸ hva, h2, ?_⟩
        rintro c' ⟨v', hv', hn', hc'⟩ hci
        rw [eq_of_nodup_map hin.names hv' hv (by rw [hn', hn])] at hc'
        exact h1 (List.mem_map.mpr ⟨c', hc', hci⟩)
    · rename_i hva
      rw [if_neg hva] at hc
      exact .inl ⟨v, hv, hn, hc⟩
  · rintro (⟨v, hv, hn, hc⟩ | ⟨rfl, rfl, hno⟩)
    · refine ⟨_, List.mem_map.mpr ⟨v, hv, rfl⟩, ?_⟩
      split
      · exact ⟨by rw [addCon_name]; exact hn, mem_addCon.mpr (.inl hc)⟩
      · exact ⟨hn, hc⟩
    · obtain ⟨v, hv, hn⟩ := hkn
      refine ⟨_, List.mem_map.mpr ⟨v, hv, rfl⟩, ?_⟩
      rw [if_pos hn]
      refine ⟨by rw [addCon_name]; exact hn, mem_addCon.mpr (.inr ⟨?_, rfl⟩)⟩
      intro hm
      obtain ⟨c', hc', hci⟩ := List.mem_map.mp hm
      exact hno c' ⟨v, hv, hn, hc'⟩ hci

theorem clists_addConServices_other {s : State} (hi : Inv s) {i : Nat} (hs : (Index.get s.con i).isSome) (o : Int) (add : List (Nat × Int × Option Int)) (n : Nat) (c : ConE) (hc : c.id ≠ i) :
    CLists (add.foldl (State.addConService i o) s) n c ↔ CLists s n c := by
  induction add generalizing s with
  | nil => exact Iff.rfl
  | cons a add ih =>
    have hs' : (Index.get (State.addConService i o s a).con i).isSome := by rw [addConService_eq]; rw [insertSvc_eq]; exact hs
    rw [List.foldl_cons, ih (hi.addConService hs o a) hs', clists_addConService hi]
    constructor
    · rintro (h | ⟨-, rfl, -⟩)
      · exact h
      · exact absurd rfl hc
    · exact .inl

/-- The services added, as the offers added. -/
theorem clists_addConServices {s : State} (hi : Inv s) {i : Nat} (hs : (Index.get s.con i).isSome) (o : Int) (add : List (Nat × Int × Option Int)) {os : List Offer}
    (h : ∀ n o h, CLists s n ⟨i, o, h⟩ ↔ (⟨n, o, h⟩ : Offer) ∈ os) :
    ∀ n p h, CLists (add.foldl (State.addConService i o) s) n ⟨i, p, h⟩ ↔ (⟨n, p, h⟩ : Offer) ∈ ((add.map fun a => (⟨a.1, o, a.2.1⟩ : Offer)).foldl addOffer os) := by
  induction add generalizing s os with
  | nil => exact h
  | cons a add ih =>
    rw [List.foldl_cons, List.map_cons, List.foldl_cons]
    have hcl := clists_addConService hi i o a
    have hs' : (Index.get (State.addConService i o s a).con i).isSome := by rw [addConService_eq]; rw [insertSvc_eq]; exact hs
    refine ih (s := State.addConService i o s a) (hi.addConService hs o a) hs' (os := addOffer os ⟨a.1, o, a.2.1⟩) ?_
    · intro n p hh
      rw [hcl, h]
      unfold addOffer
      have hany : os.any (fun x => x.name == a.1) = true ↔ ∃ c', CLists s a.1 c' ∧ c'.id = i := by
        rw [List.any_eq_true]
        constructor
        · rintro ⟨x, hx, hxn⟩
          obtain ⟨xn, xo, xh⟩ := x
          have hxn : xn = a.1 := by simpa using hxn
          subst hxn
          exact ⟨⟨i, xo, xh⟩, (h _ _ _).mpr hx, rfl⟩
        · rintro ⟨⟨ci, co, ch⟩, hc', rfl⟩
          exact ⟨⟨a.1, co, ch⟩, (h _ _ _).mp hc', by simp⟩
      split
      · rename_i ha
        obtain ⟨c', hc', hci⟩ := hany.mp ha
        constructor
        · rintro (h | ⟨rfl, -, h⟩)
          · exact h
          · exact absurd hci (h c' hc')
        · exact .inl
      · rename_i ha
        rw [List.mem_append, List.mem_singleton]
        constructor
        · rintro (h | ⟨rfl, h, -⟩)
          · exact .inl h
          · right
            simp only [ConE.mk.injEq] at h
            rw [h.2.1, h.2.2]
        · rintro (h | h)
          · exact .inl h
          · right
            simp only [Offer.mk.injEq] at h
            obtain ⟨h1, h2, h3⟩ := h
            refine ⟨h1, by rw [h2, h3], fun c' hc' hci => ?_⟩
            subst h1
            exact ha (hany.mpr ⟨c', hc', hci⟩)

theorem clists_removeConServices {s : State} (hi : Inv s) (i : Nat) (names : List Nat) (n : Nat) (c : ConE) :
    CLists (s.removeConServices i names) n c ↔ CLists s n c ∧ ¬ (c.id = i ∧ n ∈ names) := by
  show (∃ v ∈ s.services.map (fun v => if v.name ∈ names then v.removeCon i else v), v.name = n ∧ c ∈ v.cons) ↔ _
  unfold CLists
  constructor
  · rintro ⟨w, hw, hn, hc⟩
    obtain ⟨v, hv, rfl⟩ := List.mem_map.mp hw
    split at hn
    · rename_i hvn
      rw [if_pos hvn] at hc
      simp only [Svc.removeCon] at hc
      rw [eraseP_id (hi.consNodup v hv)] at hc
      obtain ⟨h1, h2⟩ := List.mem_filter.mp hc
      exact ⟨⟨v, hv, hn, h1⟩, fun h => by simp [h.1] at h2⟩
    · rename_i hvn
      rw [if_neg hvn] at hc
      exact ⟨⟨v, hv, hn, hc⟩, fun h => hvn (hn ▸ h.2)⟩
  · rintro ⟨⟨v, hv, hn, hc⟩, h2⟩
    refine ⟨_, List.mem_map.mpr ⟨v, hv, rfl⟩, ?_⟩
    split
    · rename_i hvn
      refine ⟨hn, ?_⟩
      simp only [Svc.removeCon]
      rw [eraseP_id (hi.consNodup v hv)]
      refine List.mem_filter.mpr ⟨hc, ?_⟩
      simp only [decide_eq_true_eq]
      exact fun e => h2 ⟨e, hn ▸ hvn⟩
    · exact ⟨hn, hc⟩

theorem conFor_cprocs (s : State) (p : Proc) (alias : Nat) (order : Int) :
    (∀ j, j ≠ (s.conFor p alias order).1 → (s.conFor p alias order).2.cprocs j = s.cprocs j) ∧
    ((∃ q, s.cprocs (s.conFor p alias order).1 = some q ∧ q.ipc = p.ipc ∧ (s.conFor p alias order).2.cprocs (s.conFor p alias order).1 = some q) ∨
     (s.cprocs (s.conFor p alias order).1 = none ∧ (∀ j q, s.cprocs j = some q → q.ipc ≠ p.ipc) ∧ (s.conFor p alias order).2.cprocs (s.conFor p alias order).1 = some p)) := by
  rcases conFor_spec (s := s) p alias order with ⟨x, ho, hx, hp, hg⟩ | ⟨ho, hx, hg⟩
  · refine ⟨fun j hj => ?_, .inl ⟨x.proc, ?_, hp, ?_⟩⟩
    · unfold State.cprocs; rw [hg, if_neg hj]
    · unfold State.cprocs; rw [hx]; rfl
    · unfold State.cprocs; rw [hg, if_pos rfl]; rfl
  · refine ⟨fun j hj => ?_, .inr ⟨?_, ?_, ?_⟩⟩
    · unfold State.cprocs; rw [hg, if_neg hj]
    · unfold State.cprocs; rw [hx]; rfl
    · intro j q hq
      obtain ⟨y, hy, rfl⟩ := cprocs_some.mp hq
      exact conOf_none ho hy
    · unfold State.cprocs; rw [hg, if_pos rfl]; rfl

theorem CInv.advertised {s s' : State} (h : CInv st P s) (hi : Inv s) {p : Proc} {alias : Nat} {order : Int} {add : List (Nat × Int × Option Int)} {remove : List Nat} {e : Env} {i : Nat}
    (hPp : st → P p)
    (ht : s'.tr = s.tr ++ [.recv (.cadvertise p alias order add remove e)])
    (hp : ∀ j, j ≠ i → s'.cprocs j = s.cprocs j)
    (hpi : (∃ q, s.cprocs i = some q ∧ q.ipc = p.ipc ∧ s'.cprocs i = some q) ∨ (s.cprocs i = none ∧ (∀ j q, s.cprocs j = some q → q.ipc ≠ p.ipc) ∧ s'.cprocs i = some p))
    (hl : ∀ n c, c.id ≠ i → (CLists s' n c ↔ CLists s n c))
    (hl' : ∀ os : List Offer, (∀ n o h, CLists s n ⟨i, o, h⟩ ↔ (⟨n, o, h⟩ : Offer) ∈ os) → ∀ n o h, CLists s' n ⟨i, o, h⟩ ↔
      (⟨n, o, h⟩ : Offer) ∈ (((add.filter fun a => permitted s.restriction alias a.1).map fun a => (⟨a.1, order, a.2.1⟩ : Offer)).foldl addOffer os).filter fun o => o.name ∉ remove)
    (h4 : s'.assoc = s.assoc) (h5 : s'.restriction = s.restriction) : CInv st P s' := by
  obtain ⟨g1, g2, g3, g4, g5, g6, g7, g8⟩ := h
  have ho : ∀ ipc, ipc ≠ p.ipc → coffers s'.restriction ipc s'.tr = coffers s.restriction ipc s.tr := by
    intro ipc hipc
    rw [h5, ht, coffers_snoc]
    simp only [coffersStep]
    rw [if_neg fun h => hipc h.symm]
  have hh : ∀ t, handed t s'.tr = handed t s.tr := by
    intro t; rw [ht, handed_snoc]; rfl
  -- what the instance offers now
  have hoi : ∃ q ns, s'.cprocs i = some q ∧ q.ipc = p.ipc ∧ coffers s'.restriction p.ipc s'.tr = some (q, ns) ∧ ∀ n o h, CLists s' n ⟨i, o, h⟩ ↔ (⟨n, o, h⟩ : Offer) ∈ ns := by
    rcases hpi with ⟨q, hq, hqi, hq'⟩ | ⟨hn, hno, hq'⟩
    · obtain ⟨ns, hns, hls⟩ := g1 i q hq
      rw [hqi] at hns
      refine ⟨q, _, hq', hqi, ?_, hl' ns hls⟩
      rw [h5, ht, coffers_snoc, hns]
      simp only [coffersStep, if_true, Option.getD_some]
    · refine ⟨p, _, hq', rfl, ?_, hl' [] ?_⟩
      · have hnone : coffers s.restriction p.ipc s.tr = none := by
          cases hb : coffers s.restriction p.ipc s.tr with
          | none => rfl
          | some qn =>
            obtain ⟨q, ns⟩ := qn
            obtain ⟨hq1, j, hj⟩ := g2 _ q ns hb
            exact absurd hq1 (hno j q hj)
        rw [h5, ht, coffers_snoc, hnone]
        simp only [coffersStep, if_true, Option.getD_none]
      · intro n o h
        refine ⟨?_, fun h => absurd h (by simp)⟩
        rintro ⟨v, hv, -, hj⟩
        obtain ⟨x, hx⟩ := hi.cons v hv _ hj
        unfold State.cprocs at hn
        rw [hx] at hn; cases hn
  obtain ⟨q, ns, hqi, hqip, hoq, hls⟩ := hoi
  have hother : ∀ j r, j ≠ i → s'.cprocs j = some r → r.ipc ≠ p.ipc := by
    intro j r hj hr hip
    rw [hp j hj] at hr
    rcases hpi with ⟨q', hq', hqi', -⟩ | ⟨-, hno, -⟩
    · obtain ⟨x, hx, hxr⟩ := cprocs_some.mp hr
      obtain ⟨y, hy, hyr⟩ := cprocs_some.mp hq'
      exact hj (hi.conIpc j i x y hx hy (by rw [hxr, hyr, hip, hqi']))
    · exact hno j r hr hip
  have hkeep : ∀ j r, s.cprocs j = some r → s'.cprocs j = some r := by
    intro j r hr
    by_cases hji : j = i
    · subst hji
      rcases hpi with ⟨q', hq', -, h⟩ | ⟨hn, -, -⟩
      · rw [hr] at hq'; cases hq'; exact h
      · rw [hn] at hr; cases hr
    · rw [hp j hji, hr]
  refine ⟨?_, ?_, ?_, ?_, ?_, ?_, ?_, ?_⟩
  · intro j r hr
    by_cases hj : j = i
    · subst hj
      rw [hqi] at hr; cases hr
      rw [hqip]
      exact ⟨ns, hoq, hls⟩
    · have hrp := hother j r hj hr
      rw [hp j hj] at hr
      obtain ⟨ms, hms, hlm⟩ := g1 j r hr
      exact ⟨ms, by rw [ho _ hrp, hms], fun n o h => (hl n _ hj).trans (hlm n o h)⟩
  · intro ipc r ms hr
    by_cases hip : ipc = p.ipc
    · subst hip
      rw [hoq] at hr
      simp only [Option.some.injEq, Prod.mk.injEq] at hr
      obtain ⟨rfl, -⟩ := hr
      exact ⟨hqip, i, hqi⟩
    · rw [ho _ hip] at hr
      obtain ⟨hr1, j, hj⟩ := g2 ipc r ms hr
      exact ⟨hr1, j, hkeep j r hj⟩
  · rw [h5, ht]; exact g3.snoc trivial
  · intro hs j r hr
    by_cases hji : j = i
    · subst hji
      rcases hpi with ⟨q', hq', -, h⟩ | ⟨-, -, h⟩
      · rw [hr] at h; cases h; exact g4 hs j r hq'
      · rw [hr] at h; cases h; exact hPp hs
    · rw [hp j hji] at hr; exact g4 hs j r hr
  · intro hs t j r hr
    rw [hh, assocOf_congr h4]
    by_cases hji : j = i
    · subst hji
      rcases hpi with ⟨q', hq', -, h⟩ | ⟨hn, hno, h⟩
      · rw [hr] at h; cases h; exact g5 hs t j r hq'
      · rw [hr] at h; cases h
        constructor
        · intro hin
          obtain ⟨q', hq'⟩ := g6 hs t j hin
          rw [hn] at hq'; cases hq'
        · intro hin
          obtain ⟨k, q', hq', e⟩ := g7 hs t _ hin
          exact absurd e (hno k q' hq')
    · rw [hp j hji] at hr; exact g5 hs t j r hr
  · intro hs t j hj
    rw [assocOf_congr h4] at hj
    obtain ⟨r, hr⟩ := g6 hs t j hj
    exact ⟨r, hkeep j r hr⟩
  · intro hs t ipc hin
    rw [hh] at hin
    obtain ⟨k, r, hr, e⟩ := g7 hs t ipc hin
    exact ⟨k, r, hkeep k r hr, e⟩
  · intro hs; rw [h5, ht]; exact (g8 hs).snoc trivial

theorem assocOf_disassociate (s : State) (t u : Nat) : State.assocOf { s with assoc := s.assoc.filter fun a => a.1 ≠ t } u = if t = u then [] else s.assocOf u := by
  show (match (s.assoc.filter fun a => a.1 ≠ t).find? (fun a => a.1 == u) with | some a => a.2 | none => []) = _
  unfold State.assocOf
  generalize s.assoc = l
  induction l with
  | nil => simp
  | cons a l ih =>
    by_cases hat : a.1 = t
    · rw [List.filter_cons_of_neg (by simp [hat]), ih]
      by_cases htu : t = u
      · rw [if_pos htu, if_pos htu]
      · rw [if_neg htu, if_neg htu, List.find?_cons_of_neg (by simp [hat, htu])]
    · rw [List.filter_cons_of_pos (by simp [hat])]
      by_cases hau : a.1 = u
      · rw [List.find?_cons_of_pos (by simp [hau]), if_neg (fun h => hat (hau.trans h.symm)), List.find?_cons_of_pos (by simp [hau])]
      · rw [List.find?_cons_of_neg (by simp [hau]), List.find?_cons_of_neg (by simp [hau]), ih]

theorem notifyTM_assoc (s : State) (p : Proc) (t : Option Nat) : (s.notifyTM p t).assoc = s.assoc := by
  unfold State.notifyTM
  split
  · rfl
  · split <;> rfl

theorem ackPrep_assoc (s : State) (p : Proc) (corr : Nat) (t : Option Nat) (e : Env) : (s.ackPrep p corr t e).assoc = s.assoc := by
  unfold State.ackPrep
  exact notifyTM_assoc _ p t

theorem Inv4.step {s : State} (h : Inv4 st P s) (m : In) (hm : st → Stays P m) : Inv4 st P (s.step m) := by
  refine ⟨h.1.step m, ?_⟩
  obtain ⟨hi, hu⟩ := h
  have hi' : Inv (s.emit (.recv m)) := hi.same ⟨rfl, rfl, rfl⟩
  have base : (∀ res ipc b, coffersStep res ipc b (.recv m) = b) → (∀ t b, handedStep t b (.recv m) = b) → Inv4 st P (s.emit (.recv m)) := fun hn hh =>
    ⟨hi', hu.keeps (es := [.recv m]) rfl (by intro e he; rw [List.mem_singleton] at he; subst he; exact ⟨hn, fun _ _ => trivial, fun _ _ => trivial, hh⟩) (CSame.of_con rfl rfl rfl rfl)⟩
  cases m with
  | advertise p alias add remove e =>
    show CInv st P ((s.emit _).advertise p alias add remove e)
    rw [advertise_eq]
    split
    · rename_i hc
      rw [remove_eq hi']
      have hc' : add = [] ∧ remove = [] := by simpa using hc
      refine hu.without (.advertise p alias add remove e) (p := fun q => q.pid == p.pid) (es := []) (by rw [List.append_nil]; rfl) (by simp) ?_ ?_ (fun _ _ => rfl) ?_ rfl rfl rfl rfl
      · intro res ipc q ns hq
        simp only [coffersStep, hc', and_self, if_true]
        cases hb : q.pid == p.pid <;> simp [Option.filter, hb, bne]
      · intro res ipc
        simp only [coffersStep, hc', and_self, if_true]
        rfl
      · intro hs q hq
        have := hm hs hc' q hq
        simpa using this
    · rename_i hc
      have hc' : ¬ (add = [] ∧ remove = []) := by simpa using hc
      have hb := base (fun res ipc b => by simp only [coffersStep, hc', if_false]) (fun _ _ => rfl)
      have hfr := seqFor_eq (s.emit (.recv (.advertise p alias add remove e))) p alias
      have hsi := seqFor_isSome (s.emit (.recv (.advertise p alias add remove e))) p alias
      have hsf := hi'.seqFor p alias
      generalize (s.emit (.recv (.advertise p alias add remove e))).seqFor p alias = r at hfr hsi hsf ⊢
      obtain ⟨i, t⟩ := r
      dsimp only at hfr hsi hsf ⊢
      have ht : Inv4 st P t := ⟨hsf, hb.2.keeps (es := []) (by rw [hfr]; simp) (by simp) (CSame.of_con (by rw [hfr]) (by rw [hfr]) (by rw [hfr]) (by rw [hfr]))⟩
      split
      · exact ht.2.keeps (es := []) (by simp) (by simp) (CSame.of_con rfl rfl rfl rfl)
      · refine (Inv4.takePending ⟨?_, ?_⟩ _ _).2
        · exact (hsf.addSeqServices hsi _).removeSeqServices _ _
        · have hfr2 := addSeqServices_frame i t (add.filter fun n => (s.emit (.recv (.advertise p alias add remove e))).allowed alias n)
          refine ht.2.keeps (es := []) ?_ (by simp) ⟨?_, ?_, ?_, ?_⟩
          · show ((add.filter fun n => _).foldl (State.addSeqService i) t).tr = _
            rw [hfr2]; simp
          · intro j
            show (Index.get ((add.filter fun n => _).foldl (State.addSeqService i) t).con j).map _ = _
            rw [hfr2]; rfl
          · intro n c
            rw [clists_removeSeqServices, clists_addSeqServices]
          · show ((add.filter fun n => _).foldl (State.addSeqService i) t).restriction = _
            rw [hfr2]
          · show ((add.filter fun n => _).foldl (State.addSeqService i) t).assoc = _
            rw [hfr2]
  | cadvertise p alias order add remove e =>
    show CInv st P ((s.emit _).cadvertise p alias order add remove e)
    rw [cadvertise_eq, takeReady_eq]
    refine (Inv4.again ⟨?_, ?_⟩ _ _).2
    · exact Inv.same (((hi'.conFor p alias order).addConServices (conFor_isSome _ p alias order) order _).removeConServices _ _) ⟨rfl, rfl, rfl⟩
    · have hcf := conFor_eq (s.emit (.recv (.cadvertise p alias order add remove e))) p alias order
      have hcp := conFor_cprocs (s.emit (.recv (.cadvertise p alias order add remove e))) p alias order
      have hinv := hi'.conFor p alias order
      have hsome := conFor_isSome (s.emit (.recv (.cadvertise p alias order add remove e))) p alias order
      have hall : ∀ n, (s.emit (.recv (.cadvertise p alias order add remove e))).allowed alias n = permitted s.restriction alias n := allowed_eq _ alias
      simp only [hall]
      generalize (s.emit (.recv (.cadvertise p alias order add remove e))).conFor p alias order = r at hcf hcp hinv hsome ⊢
      obtain ⟨i, t⟩ := r
      dsimp only at hcf hcp hinv hsome ⊢
      have hpe : ∀ j, State.cprocs (s.emit (.recv (.cadvertise p alias order add remove e))) j = s.cprocs j := fun _ => rfl
      simp only [hpe] at hcp
      have hle : ∀ n c, CLists t n c ↔ CLists s n c := fun n c => CLists.of_services (by rw [hcf]; rfl)
      have hfr := addConServices_frame i order t (add.filter fun n => permitted s.restriction alias n.1)
      have hadd := fun os => clists_addConServices hinv hsome order (add.filter fun n => permitted s.restriction alias n.1) (os := os)
      have hoth := clists_addConServices_other hinv hsome order (add.filter fun n => permitted s.restriction alias n.1)
      have hinv2 := hinv.addConServices hsome order (add.filter fun n => permitted s.restriction alias n.1)
      have hrem := clists_removeConServices hinv2 i remove
      have hcpt : ∀ j, ((add.filter fun n => permitted s.restriction alias n.1).foldl (State.addConService i order) t).cprocs j = t.cprocs j := fun j => by rw [hfr]; rfl
      generalize (add.filter fun n => permitted s.restriction alias n.1).foldl (State.addConService i order) t = u at hfr hadd hoth hrem hcpt ⊢
      have hl0 : ∀ n c, c.id ≠ i → (CLists (u.removeConServices i remove) n c ↔ CLists s n c) := by
        intro n c hc
        rw [hrem, and_iff_left (fun h => hc h.1)]
        exact (hoth n c hc).trans (hle n c)
      refine hu.advertised hi (fun hs => hm hs) (i := i) (alias := alias) (order := order) (add := add) (remove := remove) (e := e) ?_ ?_ ?_ hl0 ?_ ?_ ?_
      · show u.tr = _
        rw [hfr, hcf]; rfl
      · intro j hj
        show u.cprocs j = _
        rw [hcpt]; exact hcp.1 j hj
      · have : State.cprocs { u.removeConServices i remove with lookups := (u.removeConServices i remove).lookups.filter fun l => !(u.removeConServices i remove).ready l } i = t.cprocs i := hcpt i
        rw [this]; exact hcp.2
      · intro os hos n o hh
        refine (hrem n _).trans ?_
        rw [(hadd os (fun n o h => (hle n _).trans (hos n o h)) n o hh), List.mem_filter]
        simp
      · show u.assoc = _
        rw [hfr, hcf]; rfl
      · show u.restriction = _
        rw [hfr, hcf]; rfl
  | creset p =>
    show CInv st P ((s.emit _).remove _).1
    rw [remove_eq hi']
    refine hu.without (.creset p) (p := fun q => q.ipc == p.ipc) (es := []) (by rw [List.append_nil]; rfl) (by simp) ?_ ?_ (fun _ _ => rfl) ?_ rfl rfl rfl rfl
    · intro res ipc q ns hq
      simp only [coffersStep, hq]
      by_cases hb : p.ipc = ipc
      · simp [hb]
      · have hb' : ¬ ipc = p.ipc := fun h => hb h.symm
        simp [hb, hb']
    · intro res ipc
      simp only [coffersStep]
      split <;> rfl
    · intro hs q hq
      have := hm hs q hq
      simpa using this
  | cinstance p alias order =>
    show CInv st P ((s.emit _).cinstance p alias order)
    have hb := base (fun _ _ _ => rfl) (fun _ _ => rfl)
    refine hb.2.keeps (es := []) ?_ (by simp) ⟨?_, ?_, ?_, ?_⟩
    · unfold State.cinstance; split <;> simp
    · intro i
      unfold State.cinstance
      split
      · rfl
      · unfold State.cprocs
        simp only [Index.get_modify]
        split
        · rename_i e; subst e
          cases Index.get (s.emit (.recv (.cinstance p alias order))).con i <;> rfl
        · rfl
    · intro n c; exact clists_cinstance _ _ _ _ _ _
    · unfold State.cinstance; split <;> rfl
    · unfold State.cinstance; split <;> rfl
  | lookup r e => exact ((base (fun _ _ _ => rfl) (fun _ _ => rfl)).lookup r e).2
  | discard p corr reply =>
    show CInv st P ((s.emit _).discard p corr reply)
    have hb := base (fun _ _ _ => rfl) (fun _ _ => rfl)
    rw [discard_eq]
    split
    · exact hb.2.keeps (es := if reply then [.discarded p.ipc corr true] else []) rfl (by cases reply <;> simp [cquiet_discarded]) (CSame.of_con rfl rfl rfl rfl)
    · exact hb.2.keeps (es := if reply then [.discarded p.ipc corr false] else []) rfl (by cases reply <;> simp [cquiet_discarded]) (CSame.of_con rfl rfl rfl rfl)
  | ack p corr trid e =>
    show CInv st P ((s.emit _).ack p corr trid e)
    have hb := base (fun _ _ _ => rfl) (fun _ _ => rfl)
    rw [ack_eq]
    obtain ⟨es, ht, hq⟩ := ackPrep_tr (s.emit (.recv (.ack p corr trid e))) p corr trid e
    have hs := ackPrep_same (s.emit (.recv (.ack p corr trid e))) p corr trid e
    have hd := ackPrep_frame (s.emit (.recv (.ack p corr trid e))) p corr trid e
    have hd2 := ackPrep_assoc (s.emit (.recv (.ack p corr trid e))) p corr trid e
    have hpi := hi'.same hs
    have hq' : ∀ x ∈ es, CQuiet x := fun x hx => by obtain ⟨y, rfl⟩ := hq x hx; exact cquiet_rollback y
    generalize (s.emit (.recv (.ack p corr trid e))).ackPrep p corr trid e = t at ht hs hpi hd hd2
    have ht3 : CInv st P t := hb.2.keeps ht hq' (CSame.of_con hs.con hs.services hd.2.2 hd2)
    split
    · exact ht3
    · split
      · refine ht3.keeps (es := (ackShutdown p corr t.shutdowns).2) rfl ?_ (CSame.of_con rfl rfl rfl rfl)
        intro x hx
        obtain ⟨a, b, c, rfl⟩ := ackShutdown_shutdown x hx; exact cquiet_shutdown a b c
      · refine (Inv4.takePending ⟨?_, ?_⟩ _ _).2
        · exact hpi.free _ rfl rfl rfl
        · exact ht3.keeps (es := []) (by simp [State.modifySeq]) (by simp) (CSame.of_con rfl rfl rfl rfl)
  | exit pid e =>
    show CInv st P ((s.emit _).exit pid e)
    rw [exit_eq hi']
    refine (Inv4.again ⟨?_, ?_⟩ _ _).2
    · exact (hi'.without fun q => q.pid == pid).same ⟨rfl, rfl, rfl⟩
    · refine hu.without (.exit pid e) (p := fun q => q.pid == pid) (es := (failShutdown pid s.shutdowns).2 ++ (s.callers (s.seqIds fun q => q.pid == pid)).map fun c => Ev.error c.1.ipc c.2 .serviceError) ?_ ?_ ?_ ?_ (fun _ _ => rfl) ?_ rfl rfl rfl rfl
      · show ((s.tr ++ [_]) ++ _) ++ _ = _
        rw [List.append_assoc]; rfl
      · intro x hx
        rcases List.mem_append.mp hx with hx | hx
        · obtain ⟨a, b, c, rfl⟩ := failShutdown_shutdown x hx; exact cquiet_shutdown a b c
        · obtain ⟨c, -, rfl⟩ := List.mem_map.mp hx; exact cquiet_error _ _ _
      · intro res ipc q ns hq
        simp only [coffersStep]
        cases hb : q.pid == pid <;> simp [Option.filter, hb, bne]
      · intro res ipc; rfl
      · intro hs q hq
        have := hm hs q hq
        simpa using this
  | prepareShutdown p corr ps e =>
    show CInv st P ((s.emit _).prepareShutdown p corr ps e)
    have hb := base (fun _ _ _ => rfl) (fun _ _ => rfl)
    have hfr := prepareAll_frame (s.emit (.recv (.prepareShutdown p corr ps e))) ([], [], []) ps
    have hl := clists_prepareAll (s.emit (.recv (.prepareShutdown p corr ps e))) ([], [], []) ps
    have hinv := hi'.prepareAll ([], [], []) ps
    have h1 : CInv st P ((s.emit (.recv (.prepareShutdown p corr ps e))).prepareAll ([], [], []) ps).1 :=
      hb.2.keeps (es := []) (by rw [hfr]; simp) (by simp) ⟨fun i => by unfold State.cprocs; rw [hfr], hl, by rw [hfr], by rw [hfr]⟩
    have h2 : Inv4 st P ((s.emit (.recv (.prepareShutdown p corr ps e))).prepared ps e) := by
      unfold State.prepared
      simp only
      split
      · exact ⟨hinv, h1⟩
      · apply Inv4.again
        exact ⟨hinv.same ⟨rfl, rfl, rfl⟩, h1.keeps (es := []) (by simp) (by simp) (CSame.of_con rfl rfl rfl rfl)⟩
    rw [prepareShutdown_eq]
    simp only
    generalize (s.emit (.recv (.prepareShutdown p corr ps e))).prepared ps e = t at h2
    have hemit : CInv st P (t.emit (.shutdown p.ipc corr (((s.emit (.recv (.prepareShutdown p corr ps e))).prepareAll ([], [], []) ps).2.2.2 ++ (((s.emit (.recv (.prepareShutdown p corr ps e))).prepareAll ([], [], []) ps).2.2.1.filter fun i => !t.isBusy i).filterMap fun i => (Index.get t.seq i).map (·.proc)))) :=
      h2.2.keeps rfl (by simp [cquiet_shutdown]) (CSame.of_con rfl rfl rfl rfl)
    split <;> split
    · exact h2.2
    · exact hemit
    · exact h2.2.keeps (es := []) (by simp) (by simp) (CSame.of_con rfl rfl rfl rfl)
    · exact hemit.keeps (es := []) (by simp) (by simp) (CSame.of_con rfl rfl rfl rfl)
  | alarm e =>
    show CInv st P ((s.emit _).alarm e)
    have hb := base (fun _ _ _ => rfl) (fun _ _ => rfl)
    rw [alarm_eq]
    have h1 : CInv st P ((s.emit (.recv (.alarm e))).alarmPrep e) := hb.2.keeps (es := []) (by simp [State.alarmPrep]) (by simp) (CSame.of_con rfl rfl rfl rfl)
    have h2 : ∀ ds : List Entry, CInv st P (ds.foldl State.expire ((s.emit (.recv (.alarm e))).alarmPrep e)) := by
      intro ds
      refine expire_ind (P := CInv st P) ?_ ds h1
      intro t d ht
      have := expire_cases t d
      generalize t.expire d = t' at this
      cases this with
      | nothing => exact ht
      | lookup l _ => exact ht.keeps rfl (by simp [cquiet_timedOut]) (CSame.of_con rfl rfl rfl rfl)
      | noCaller _ i x h1 h2 h3 h4 => exact ht.keeps (es := []) (by simp) (by simp) (CSame.of_con rfl rfl rfl rfl)
      | caller _ i x c h1 h2 h3 h4 =>
        exact ht.keeps rfl (by simp [cquiet_error, cquiet_assassinate]) (CSame.of_con rfl rfl rfl rfl)
    split
    · exact (h2 _).keeps (es := []) (by simp [State.setTimer]) (by simp) (CSame.of_con rfl rfl rfl rfl)
    · exact h2 _
  | discovered corr e =>
    show CInv st P ((s.emit _).discovered corr e)
    have hb := base (fun _ _ _ => rfl) (fun _ _ => rfl)
    rw [discovered_eq]
    split
    · exact hb.2
    · split
      · refine (Inv4.lookup ⟨?_, ?_⟩ _ _).2
        · exact hb.1.same ⟨rfl, rfl, rfl⟩
        · exact hb.2.keeps (es := []) (by simp) (by simp) (CSame.of_con rfl rfl rfl rfl)
      · split
        · exact hb.2
        · exact hb.2.keeps rfl (by simp [cquiet_absent]) (CSame.of_con rfl rfl rfl rfl)
  | disassociate t =>
    show CInv st P { s.emit (.recv (.disassociate t)) with assoc := s.assoc.filter fun a => a.1 ≠ t }
    obtain ⟨g1, g2, g3, g4, g5, g6, g7, g8⟩ := hu
    have hco : ∀ ipc, coffers s.restriction ipc (s.tr ++ [.recv (.disassociate t)]) = coffers s.restriction ipc s.tr := fun ipc => by rw [coffers_snoc]; rfl
    have hho : ∀ u, handed u (s.tr ++ [.recv (.disassociate t)]) = if t = u then [] else handed u s.tr := fun u => by rw [handed_snoc]; rfl
    have has : ∀ u, State.assocOf { s.emit (.recv (.disassociate t)) with assoc := s.assoc.filter fun a => a.1 ≠ t } u = if t = u then [] else s.assocOf u := fun u => assocOf_disassociate s t u
    refine ⟨?_, ?_, g3.snoc trivial, g4, ?_, ?_, ?_, fun hst => (g8 hst).snoc trivial⟩
    · intro i p hp
      obtain ⟨os, ho, hl⟩ := g1 i p hp
      exact ⟨os, (hco _).trans ho, hl⟩
    · intro ipc q os ho
      exact g2 ipc q os ((hco _).symm.trans ho)
    · intro hs u i p hp
      rw [has]
      show _ ↔ _ ∈ handed u (s.tr ++ [_])
      rw [hho]
      split
      · simp
      · exact g5 hs u i p hp
    · intro hs u i hi
      rw [has] at hi
      split at hi
      · cases hi
      · exact g6 hs u i hi
    · intro hs u ipc hin
      change ipc ∈ handed u (s.tr ++ [_]) at hin
      rw [hho] at hin
      split at hin
      · cases hin
      · exact g7 hs u ipc hin
  | undelivered ipc =>
    have hb := base (fun _ _ _ => rfl) (fun _ _ => rfl)
    show CInv st P (match (s.emit (.recv (.undelivered ipc))).seqOf ipc with | some i => (s.emit (.recv (.undelivered ipc))).modifySeq i SeqI.free | none => s.emit (.recv (.undelivered ipc)))
    cases hf : (s.emit (.recv (.undelivered ipc))).seqOf ipc with
    | none => exact hb.2
    | some i => exact hb.2.keeps (es := []) (by simp [State.modifySeq]) (by simp) (CSame.of_con rfl rfl rfl rfl)

end

theorem Inv4.init {st : Prop} {P : Proc → Prop} (c : Config) : Inv4 st P (State.init c) := by
  refine ⟨Inv.init c, ?_, ?_, AllGood.nil, ?_, ?_, ?_, ?_, fun _ => AllGood.nil⟩
  · intro i p h; simp [State.cprocs, State.init] at h
  · intro ipc q ns h; cases h
  · intro _ i p h; simp [State.cprocs, State.init] at h
  · intro _ t i p h; simp [State.cprocs, State.init] at h
  · intro _ t i h; cases h
  · intro _ t i h; cases h

theorem Inv4.run {st : Prop} {P : Proc → Prop} {s : State} (h : Inv4 st P s) (is : List In) (hm : st → ∀ m ∈ is, Stays P m) : Inv4 st P (s.run is) := by
  unfold State.run
  induction is generalizing s with
  | nil => exact h
  | cons i is ih => exact ih (h.step i fun hs => hm hs i List.mem_cons_self) fun hs m hmm => hm hs m (List.mem_cons_of_mem _ hmm)

end Casual.Service
