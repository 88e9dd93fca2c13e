import Verif.Service.Frame

/-!
# Properties of the service manager

`(State.init c).run is` is the service manager, configured with `c`, after the messages `is`; `tr` is what it has received
and sent, in order. `At tr a e` says that `tr` contains `e` after `a`.
-/
namespace Casual.Service

/-! ## A concrete service manager, for examples -/

def exConf : Config := { timeout := none, fatal := false, restriction := [], forward := ⟨900, 900⟩ }

def exEnv (now : Time) : Env := { now, picks := [], sent := [], junk := 0 }

def exReq (caller corr name : Nat) : Req := { proc := ⟨caller, caller⟩, corr, name, sem := .regular, who := .internal, gtrid := none, deadline := none }

/-- Local server 1 offers service 7. -/
def exLocal : In := .advertise ⟨1, 1⟩ 0 [7] [] (exEnv 0)
/-- A remote instance 50 (51, …) offers service 7, with order and hops. -/
def exRemote (ipc : Nat) (order hops : Int) : In := .cadvertise ⟨ipc, ipc⟩ 0 order [(7, hops, none)] [] (exEnv 0)
def exLookup (caller corr : Nat) : In := .lookup (exReq caller corr 7) (exEnv 1)
def exLookupT (caller corr t : Nat) (pick : Nat) : In := .lookup { exReq caller corr 7 with gtrid := some t } { exEnv 1 with picks := [(corr, pick)] }

/-! ## C25: one caller at a time -/

/-- A sequential instance is handed out only when it is not in use. -/
theorem C25_one_caller_at_a_time (c : Config) (is : List In) (a : List Ev) (r : Req) (t : Proc) (left : Option Int)
    (h : At ((State.init c).run is).tr a (.idle r .sequential t left)) : inUse t.ipc a = none :=
  (Inv2.run (Inv2.init c) is).2.1 a _ h

-- handed out; then the second lookup has to wait, until the acknowledgement
example : ((State.init exConf).run [exLocal, exLookup 10 100, exLookup 11 101, .ack ⟨1, 1⟩ 100 none (exEnv 2)]).tr =
    [.recv exLocal, .recv (exLookup 10 100), .idle (exReq 10 100 7) .sequential ⟨1, 1⟩ none, .recv (exLookup 11 101), .recv (.ack ⟨1, 1⟩ 100 none (exEnv 2)),
     .idle (exReq 11 101 7) .sequential ⟨1, 1⟩ none] := by decide +kernel

/-! ## C26: the best concurrent instance -/

/-- A concurrent instance that is handed out is one with the least order (and then hops) of those that offer the service. -/
theorem C26_best (c : Config) (is : List In) (a : List Ev) (r : Req) (t : Proc) (left : Option Int)
    (h : At ((State.init c).run is).tr a (.idle r .concurrent t left)) : Best c.restriction a t.ipc t r.name := by
  have := (Inv4.run (st := False) (P := fun _ => True) (Inv4.init c) is (fun h => h.elim)).2.good a _ h
  rw [run_restriction] at this
  exact this

-- of two, the one with less hops
example : ((State.init exConf).run [exRemote 50 1 5, exRemote 51 1 3, exLookup 10 100]).tr =
    [.recv (exRemote 50 1 5), .recv (exRemote 51 1 3), .recv (exLookup 10 100), .idle (exReq 10 100 7) .concurrent ⟨51, 51⟩ none] := by decide +kernel

/-- The messages of a history in which the instance with ipc 50 is handed out for transaction 3, goes, and instance 51 takes its
place in the index: then 51 passes for an instance of the transaction, and is preferred to instance 52, which really is one. -/
def exStale : List In :=
  [exRemote 50 1 1, exLookupT 10 100 3 0, .creset ⟨50, 50⟩, exRemote 51 0 0, .cadvertise ⟨52, 52⟩ 0 0 [(7, 0, none), (8, 0, none)] [] (exEnv 0),
   .lookup { exReq 10 101 8 with gtrid := some 3 } (exEnv 1), exLookupT 10 102 3 0]

def exStaleTr : List Ev :=
  [.recv (exRemote 50 1 1), .recv (exLookupT 10 100 3 0), .idle { exReq 10 100 7 with gtrid := some 3 } .concurrent ⟨50, 50⟩ none,
   .recv (.creset ⟨50, 50⟩), .recv (exRemote 51 0 0), .recv (.cadvertise ⟨52, 52⟩ 0 0 [(7, 0, none), (8, 0, none)] [] (exEnv 0)),
   .recv (.lookup { exReq 10 101 8 with gtrid := some 3 } (exEnv 1)), .idle { exReq 10 101 8 with gtrid := some 3 } .concurrent ⟨52, 52⟩ none,
   .recv (exLookupT 10 102 3 0)]

/-- If one of the best has been handed out for the transaction already, then such a one should be handed out again; it is not
so: an instance that takes the place of one that has gone inherits its transactions. -/
theorem C26_affinity_refuted : ¬ ∀ (c : Config) (is : List In) (a : List Ev) (r : Req) (p : Proc) (left : Option Int) (t : Nat),
    At ((State.init c).run is).tr a (.idle r .concurrent p left) → r.gtrid = some t →
    (∃ ipc q, Best c.restriction a ipc q r.name ∧ ipc ∈ handed t a) → p.ipc ∈ handed t a := by
  intro h
  have htr : ((State.init exConf).run exStale).tr = exStaleTr ++ .idle { exReq 10 102 7 with gtrid := some 3 } .concurrent ⟨51, 51⟩ none :: [] := by decide +kernel
  have hoff : ∀ ipc, coffers exConf.restriction ipc exStaleTr = if ipc = 52 then some (⟨52, 52⟩, [⟨7, 0, 0⟩, ⟨8, 0, 0⟩]) else if ipc = 51 then some (⟨51, 51⟩, [⟨7, 0, 0⟩]) else none := by
    intro ipc
    by_cases h1 : ipc = 50
    · subst h1; decide +kernel
    · by_cases h2 : ipc = 51
      · subst h2; decide +kernel
      · by_cases h3 : ipc = 52
        · subst h3; decide +kernel
        · simp [exStaleTr, coffers, List.foldl, exRemote, exLookupT, coffersStep, exConf, permitted, h1, h2, h3, Ne.symm h1, Ne.symm h2, Ne.symm h3]
  have hb : Best exConf.restriction exStaleTr 52 ⟨52, 52⟩ 7 := by
    refine ⟨⟨7, 0, 0⟩, ⟨_, hoff 52, by simp, rfl⟩, ?_⟩
    rintro ipc' p' o' ⟨os, h1, h2, h3⟩
    rw [hoff] at h1
    split at h1
    · cases h1
      simp only [List.mem_cons, List.not_mem_nil, or_false] at h2
      rcases h2 with rfl | rfl <;> exact .inr ⟨rfl, Int.le_refl _⟩
    · split at h1
      · cases h1
        simp only [List.mem_cons, List.not_mem_nil, or_false] at h2
        subst h2; exact .inr ⟨rfl, Int.le_refl _⟩
      · cases h1
  have := h exConf exStale _ _ _ _ 3 ⟨[], htr⟩ rfl ⟨52, _, hb, by decide +kernel⟩
  revert this
  decide +kernel

/-- As long as no concurrent instance goes. (`P` are the instances; it can be taken to be all that ever come.) -/
theorem C26_affinity_partial (c : Config) (is : List In) (P : Proc → Prop) (hs : ∀ m ∈ is, Stays P m) (a : List Ev) (r : Req) (p : Proc) (left : Option Int) (t : Nat)
    (h : At ((State.init c).run is).tr a (.idle r .concurrent p left)) (ht : r.gtrid = some t)
    (hb : ∃ ipc q, Best c.restriction a ipc q r.name ∧ ipc ∈ handed t a) : p.ipc ∈ handed t a := by
  have := (Inv4.run (st := True) (P := P) (Inv4.init c) is (fun _ => hs)).2.goodAff trivial a _ h
  rw [run_restriction] at this
  exact this t ht hb

/-- The hypotheses: two instances that stay. The second lookup of the transaction gets the same instance, although another one is picked. -/
example : (∀ m ∈ [exRemote 50 0 0, exRemote 51 0 0, exLookupT 10 100 3 0, exLookupT 10 101 3 1, .exit 10 (exEnv 3)], Stays (fun p => p.pid = 50 ∨ p.pid = 51) m) ∧
    ((State.init exConf).run [exRemote 50 0 0, exRemote 51 0 0, exLookupT 10 100 3 1, exLookupT 10 101 3 0]).tr =
      [.recv (exRemote 50 0 0), .recv (exRemote 51 0 0), .recv (exLookupT 10 100 3 1), .idle { exReq 10 100 7 with gtrid := some 3 } .concurrent ⟨51, 51⟩ none,
       .recv (exLookupT 10 101 3 0), .idle { exReq 10 101 7 with gtrid := some 3 } .concurrent ⟨51, 51⟩ none] := by
  refine ⟨?_, by decide +kernel⟩
  intro m hm
  simp only [List.mem_cons, List.not_mem_nil, or_false] at hm
  rcases hm with rfl | rfl | rfl | rfl | rfl
  · exact .inl rfl
  · exact .inr rfl
  · trivial
  · trivial
  · rintro q (h | h) <;> rw [h] <;> decide

/-! ## C27: deadlines -/

/-- At any time the deadlines that have expired are exactly those before now, the others are kept, and the next one
reported is the earliest that is left. -/
theorem C27_expire_exactly (c : Config) (is : List In) (now : Time) :
    let ds := ((State.init c).run is).deadlines
    (expired now ds).1 = ds.filter (fun d => decide (d.when_ < now)) ∧
    (expired now ds).2.1 = ds.filter (fun d => decide (now ≤ d.when_)) ∧
    (∀ t, (expired now ds).2.2 = some t → (∃ d ∈ ds, d.when_ = t ∧ now ≤ t) ∧ ∀ d ∈ ds, now ≤ d.when_ → t ≤ d.when_) ∧
    ((expired now ds).2.2 = none → ∀ d ∈ ds, d.when_ < now) := by
  have ho := (BInv.run (ok := False) (Inv.init c) (BInv.init c) is (fun h => h.elim)).order
  generalize ((State.init c).run is).deadlines = ds at ho
  dsimp only [expired]
  have hsplit : ds.takeWhile (fun d => decide (d.when_ < now)) = ds.filter (fun d => decide (d.when_ < now)) ∧
      ds.dropWhile (fun d => decide (d.when_ < now)) = ds.filter (fun d => decide (now ≤ d.when_)) := by
    induction ds with
    | nil => exact ⟨rfl, rfl⟩
    | cons d ds ih =>
      have hd := List.pairwise_cons.mp ho
      obtain ⟨h1, h2⟩ := ih hd.2
      by_cases hlt : d.when_ < now
      · have hn : ¬ now ≤ d.when_ := Int.not_le.mpr hlt
        rw [List.takeWhile_cons_of_pos (by simpa using hlt), List.filter_cons_of_pos (by simpa using hlt), List.dropWhile_cons_of_pos (by simpa using hlt),
          List.filter_cons_of_neg (by simpa using hlt), h1, h2]
        exact ⟨rfl, rfl⟩
      · have hn : now ≤ d.when_ := Int.not_lt.mp hlt
        have hall : ∀ x ∈ ds, now ≤ x.when_ := fun x hx => Int.le_trans hn (hd.1 x hx)
        rw [List.takeWhile_cons_of_neg (by simpa using hn), List.filter_cons_of_neg (by simpa using hn), List.dropWhile_cons_of_neg (by simpa using hn),
          List.filter_cons_of_pos (by simpa using hn)]
        refine ⟨?_, ?_⟩
        · symm; rw [List.filter_eq_nil_iff]; intro x hx; simpa using hall x hx
        · congr 1; symm; rw [List.filter_eq_self]; intro x hx; simpa using hall x hx
  refine ⟨hsplit.1, hsplit.2, ?_, ?_⟩
  · intro t ht
    rw [hsplit.2] at ht
    have hp : InOrder (ds.filter fun d => decide (now ≤ d.when_)) := List.Pairwise.filter _ ho
    have hm : ∀ d, d ∈ ds.filter (fun d => decide (now ≤ d.when_)) ↔ d ∈ ds ∧ now ≤ d.when_ := fun d => by simp
    generalize ds.filter (fun d => decide (now ≤ d.when_)) = l at ht hp hm
    cases l with
    | nil => simp at ht
    | cons d l =>
      simp only [List.head?_cons, Option.map_some, Option.some.injEq] at ht
      have hd := (hm d).mp List.mem_cons_self
      refine ⟨⟨d, hd.1, ht, ht ▸ hd.2⟩, ?_⟩
      intro x hx hn
      rcases List.mem_cons.mp ((hm x).mpr ⟨hx, hn⟩) with rfl | hx
      · exact Int.le_of_eq ht.symm
      · rw [← ht]; exact (List.pairwise_cons.mp hp).1 x hx
  · intro hn d hd
    rw [hsplit.2] at hn
    apply Int.not_le.mp
    intro hle
    have : d ∈ ds.filter fun d => decide (now ≤ d.when_) := by simp [hd, hle]
    generalize ds.filter (fun d => decide (now ≤ d.when_)) = l at hn this
    cases l with
    | nil => cases this
    | cons => simp at hn

def exReqD (caller corr : Nat) (deadline : Time) : Req := { exReq caller corr 7 with deadline := some deadline }

-- a state with two deadlines, one of which has expired at 15
example : (expired 15 ((State.init exConf).run [exLocal, .advertise ⟨2, 2⟩ 0 [7] [] (exEnv 0), .lookup (exReqD 10 100 20) (exEnv 1), .lookup (exReqD 11 101 10) (exEnv 1)]).deadlines) =
    ([⟨10, 101, some 1, some 7⟩], [⟨20, 100, some 0, some 7⟩], some 20) := by decide +kernel

/-- The timer always goes off when the earliest deadline is due, or before; refuted: no timer is set for the deadline of a lookup that
has to wait. -/
theorem C27_timer_refuted : ¬ ∀ (c : Config) (is : List In), ((State.init c).run is).covered := by
  intro h
  have := h exConf [exLocal, exLookup 10 100, .lookup (exReqD 11 101 10) (exEnv 1)] ⟨10, 101, none, none⟩ (by decide +kernel)
  obtain ⟨t, ht, -⟩ := this
  have : ((State.init exConf).run [exLocal, exLookup 10 100, .lookup (exReqD 11 101 10) (exEnv 1)]).timer = none := by decide +kernel
  rw [this] at ht; cases ht

/-- The timer is right as long as lookups that might have to wait are made with the semantic not to, or to wait without deadline. -/
theorem C27_timer_partial (c : Config) (is : List In) (hp : ∀ m ∈ is, m.patient) : ((State.init c).run is).covered :=
  (BInv.run (ok := True) (Inv.init c) (BInv.init c) is (fun _ => hp)).timer trivial

-- the hypotheses
example : let r : Req := { exReqD 10 100 20 with sem := .noReply }
    (∀ m ∈ [exLocal, .lookup r (exEnv 1)], m.patient) ∧ ((State.init exConf).run [exLocal, .lookup r (exEnv 1)]).deadlines = [⟨20, 100, some 0, some 7⟩] ∧
    ((State.init exConf).run [exLocal, .lookup r (exEnv 1)]).timer = some 20 := by
  refine ⟨?_, by decide +kernel, by decide +kernel⟩
  intro m hm
  simp only [List.mem_cons, List.not_mem_nil, or_false] at hm
  rcases hm with rfl | rfl
  · trivial
  · show _ ∨ _; decide

/-- No memory behind the end of the deadlines should be read; refuted: the only call with a deadline, and its acknowledgement. -/
theorem C27_no_read_behind_end_refuted : ¬ ∀ (c : Config) (is : List In), ((State.init c).run is).ub = false := by
  intro h
  have := h exConf [exLocal, .lookup (exReqD 10 100 20) (exEnv 1), .ack ⟨1, 1⟩ 100 none (exEnv 2)]
  revert this
  decide +kernel

/-! ## C28: a new order -/

/-- A concurrent instance that is handed out has announced an order not greater than the others that offer the service; refuted: an
instance that is known and announces a new order keeps the old one for what it offers already. -/
theorem C28_new_order_refuted : ¬ ∀ (c : Config) (is : List In) (a : List Ev) (r : Req) (t : Proc) (left : Option Int),
    At ((State.init c).run is).tr a (.idle r .concurrent t left) →
    ∀ n, announced t.ipc a = some (t, n) → ∀ ipc q o m, Offered c.restriction a ipc q r.name o → announced ipc a = some (q, m) → n ≤ m := by
  intro h
  have htr : ((State.init exConf).run [exRemote 50 1 0, exRemote 51 2 0, .cinstance ⟨51, 51⟩ 0 0, exLookup 10 100]).tr =
      [.recv (exRemote 50 1 0), .recv (exRemote 51 2 0), .recv (.cinstance ⟨51, 51⟩ 0 0), .recv (exLookup 10 100)] ++ .idle (exReq 10 100 7) .concurrent ⟨50, 50⟩ none :: [] := by decide +kernel
  have := h exConf _ _ _ _ _ ⟨[], htr⟩ 1 (by decide +kernel) 51 ⟨51, 51⟩ ⟨7, 2, 0⟩ 0 ⟨[⟨7, 2, 0⟩], by decide +kernel, by simp, rfl⟩ (by decide +kernel)
  revert this
  decide

/-- The same when the instance advertises again, with a new order. -/
theorem C28_readvertise_refuted : ¬ ∀ (c : Config) (is : List In) (a : List Ev) (r : Req) (t : Proc) (left : Option Int),
    (∀ m ∈ is, ∀ p alias order, m ≠ .cinstance p alias order) →
    At ((State.init c).run is).tr a (.idle r .concurrent t left) →
    ∀ n, announced t.ipc a = some (t, n) → ∀ ipc q o m, Offered c.restriction a ipc q r.name o → announced ipc a = some (q, m) → n ≤ m := by
  intro h
  have htr : ((State.init exConf).run [exRemote 50 1 0, exRemote 51 2 0, exRemote 51 0 0, exLookup 10 100]).tr =
      [.recv (exRemote 50 1 0), .recv (exRemote 51 2 0), .recv (exRemote 51 0 0), .recv (exLookup 10 100)] ++ .idle (exReq 10 100 7) .concurrent ⟨50, 50⟩ none :: [] := by decide +kernel
  have := h exConf _ _ _ _ _ (by simp [exRemote, exLookup]) ⟨[], htr⟩ 1 (by decide +kernel) 51 ⟨51, 51⟩ ⟨7, 2, 0⟩ 0 ⟨[⟨7, 2, 0⟩], by decide +kernel, by simp, rfl⟩ (by decide +kernel)
  revert this
  decide

theorem announced_snoc (ipc : Nat) (tr : List Ev) (e : Ev) : announced ipc (tr ++ [e]) = announceStep ipc (announced ipc tr) e := by simp [announced]

theorem foldl_addOffer_order {n : Int} {os new : List Offer} (h1 : ∀ o ∈ os, o.order = n) (h2 : ∀ o ∈ new, o.order = n) : ∀ o ∈ new.foldl addOffer os, o.order = n := by
  induction new generalizing os with
  | nil => exact h1
  | cons x new ih =>
    refine ih ?_ (fun o ho => h2 o (List.mem_cons_of_mem _ ho))
    intro o ho
    unfold addOffer at ho
    split at ho
    · exact h1 o ho
    · rcases List.mem_append.mp ho with ho | ho
      · exact h1 o ho
      · rw [List.mem_singleton] at ho; subst ho; exact h2 _ List.mem_cons_self

/-- What is offered has the order announced. -/
theorem offered_order (res : List (Nat × List Nat)) (tr : List Ev) (hk : AllGood KeepsOrder tr) (ipc : Nat) :
    match coffers res ipc tr with
    | some (p, os) => ∃ n, announced ipc tr = some (p, n) ∧ ∀ o ∈ os, o.order = n
    | none => announced ipc tr = none := by
  induction tr using snocInd with
  | nil => rfl
  | snoc tr e ih =>
    have hk' : AllGood KeepsOrder tr := by
      rintro a x ⟨b, hb⟩
      exact hk a x ⟨b ++ [e], by rw [hb]; simp⟩
    have hke := hk tr e ⟨[], rfl⟩
    specialize ih hk'
    rw [coffers_snoc, announced_snoc]
    generalize hc : coffers res ipc tr = b at ih
    generalize ha : announced ipc tr = a at ih
    -- instances that go
    have gone : ∀ (f : Proc → Bool), match b.filter (fun x => f x.1) with
        | some (p, os) => ∃ n, a.filter (fun x => f x.1) = some (p, n) ∧ ∀ o ∈ os, o.order = n
        | none => a.filter (fun x => f x.1) = none := by
      intro f
      cases b with
      | none => simp only at ih; rw [ih]; rfl
      | some x =>
        obtain ⟨p, os⟩ := x
        simp only at ih
        obtain ⟨n, rfl, ho⟩ := ih
        cases hf : f p with
        | true => simp only [Option.filter, hf, if_true]; exact ⟨n, rfl, ho⟩
        | false => simp [Option.filter, hf]
    cases e with
    | recv m =>
      cases m with
      | cadvertise p alias order add remove env =>
        simp only [coffersStep, announceStep]
        by_cases hp : p.ipc = ipc
        · simp only [hp, if_true]
          simp only [KeepsOrder, hp, ha] at hke
          cases b with
          | none =>
            simp only at ih; subst ih
            refine ⟨order, rfl, ?_⟩
            intro o ho
            refine foldl_addOffer_order (n := order) (os := []) (by simp) ?_ o (List.mem_filter.mp ho).1
            intro o ho
            obtain ⟨x, -, rfl⟩ := List.mem_map.mp ho
            rfl
          | some x =>
            obtain ⟨q, os⟩ := x
            simp only at ih
            obtain ⟨n, rfl, ho⟩ := ih
            have := hke q n rfl
            subst this
            refine ⟨order, rfl, ?_⟩
            intro o ho'
            refine foldl_addOffer_order (n := order) (os := os) ho ?_ o (List.mem_filter.mp ho').1
            intro o ho
            obtain ⟨x, -, rfl⟩ := List.mem_map.mp ho
            rfl
        · simp only [hp, if_false]; exact ih
      | cinstance p alias order =>
        simp only [coffersStep, announceStep]
        by_cases hp : p.ipc = ipc
        · simp only [hp, if_true]
          simp only [KeepsOrder, hp, ha] at hke
          cases b with
          | none => simp only at ih; subst ih; rfl
          | some x =>
            obtain ⟨q, os⟩ := x
            simp only at ih
            obtain ⟨n, rfl, ho⟩ := ih
            have := hke q n rfl
            subst this
            exact ⟨order, rfl, ho⟩
        · simp only [hp, if_false]; exact ih
      | advertise p alias add remove env =>
        simp only [coffersStep, announceStep]
        by_cases hp : add = [] ∧ remove = []
        · simp only [hp, and_self, if_true]; exact gone fun q => q.pid != p.pid
        · simp only [hp, if_false]; exact ih
      | exit pid env => exact gone fun q => q.pid != pid
      | creset p =>
        simp only [coffersStep, announceStep]
        by_cases hp : p.ipc = ipc
        · simp only [hp, if_true]
        · simp only [hp, if_false]; exact ih
      | _ => exact ih
    | _ => exact ih

/-- When instances change their order only by going and coming back (reset, withdrawal or death, and a new advertise), lookups respect the
order last announced. -/
theorem C28_new_order_partial (c : Config) (is : List In) (a : List Ev) (r : Req) (t : Proc) (left : Option Int)
    (h : At ((State.init c).run is).tr a (.idle r .concurrent t left)) (hk : AllGood KeepsOrder a) :
    ∃ n, announced t.ipc a = some (t, n) ∧ ∀ ipc q o, Offered c.restriction a ipc q r.name o → ∃ m, announced ipc a = some (q, m) ∧ n ≤ m := by
  obtain ⟨o, ⟨os, h1, h2, h3⟩, hb⟩ := C26_best c is a r t left h
  have hn := offered_order c.restriction a hk t.ipc
  rw [h1] at hn
  obtain ⟨n, hn, hon⟩ := hn
  refine ⟨n, hn, ?_⟩
  intro ipc q o' ho'
  have hle := hb ipc q o' ho'
  obtain ⟨os', g1, g2, g3⟩ := ho'
  have hm := offered_order c.restriction a hk ipc
  rw [g1] at hm
  obtain ⟨m, hm, hom⟩ := hm
  refine ⟨m, hm, ?_⟩
  rw [← hon o h2, ← hom o' g2]
  rcases hle with h | h
  · exact Int.le_of_lt h
  · exact Int.le_of_eq h.1

-- instance 51 takes a new order with a reset, and is then the one that is handed out
example : ((State.init exConf).run [exRemote 50 1 0, exRemote 51 2 0, .creset ⟨51, 51⟩, exRemote 51 0 0, exLookup 10 100]).tr =
    [.recv (exRemote 50 1 0), .recv (exRemote 51 2 0), .recv (.creset ⟨51, 51⟩), .recv (exRemote 51 0 0), .recv (exLookup 10 100), .idle (exReq 10 100 7) .concurrent ⟨51, 51⟩ none] ∧
    announced 51 [.recv (exRemote 50 1 0), .recv (exRemote 51 2 0), .recv (.creset ⟨51, 51⟩)] = none := by decide +kernel

/-! ## C29: instances that are gone -/

theorem provides_without {s : State} (f : Proc → Bool) (q : Proc) (n : Nat) : (s.without f).provides q n ↔ s.provides q n ∧ f q = false := by
  constructor
  · rintro ⟨i, x, hx, rfl, v, hv, hn, hi⟩
    obtain ⟨w, hw, rfl⟩ := List.mem_map.mp hv
    rw [without_seq] at hx
    split at hx
    · cases hx
    · rename_i hf
      refine ⟨⟨i, x, hx, rfl, w, hw, hn, (List.mem_filter.mp hi).1⟩, ?_⟩
      simpa [hx] using hf
  · rintro ⟨⟨i, x, hx, rfl, v, hv, hn, hi⟩, hf⟩
    refine ⟨i, x, ?_, rfl, _, List.mem_map_of_mem hv, hn, ?_⟩
    · rw [without_seq]; simp [hx, hf]
    · refine List.mem_filter.mpr ⟨hi, ?_⟩
      have : i ∉ s.seqIds f := by
        intro hc
        obtain ⟨y, hy, hp⟩ := mem_seqIds.mp hc
        rw [hx] at hy; cases hy
        rw [hf] at hp; cases hp
      simpa using this

theorem cprovides_without {s : State} (f : Proc → Bool) (q : Proc) (n : Nat) (o k : Int) : (s.without f).cprovides q n o k ↔ s.cprovides q n o k ∧ f q = false := by
  constructor
  · rintro ⟨i, x, hx, rfl, v, hv, hn, hi⟩
    obtain ⟨w, hw, rfl⟩ := List.mem_map.mp hv
    rw [without_con] at hx
    split at hx
    · cases hx
    · rename_i hf
      refine ⟨⟨i, x, hx, rfl, w, hw, hn, (List.mem_filter.mp hi).1⟩, ?_⟩
      simpa [hx] using hf
  · rintro ⟨⟨i, x, hx, rfl, v, hv, hn, hi⟩, hf⟩
    refine ⟨i, x, ?_, rfl, _, List.mem_map_of_mem hv, hn, ?_⟩
    · rw [without_con]; simp [hx, hf]
    · refine List.mem_filter.mpr ⟨hi, ?_⟩
      have : i ∉ s.conIds f := by
        intro hc
        obtain ⟨y, hy, hp⟩ := mem_conIds.mp hc
        rw [hx] at hy; cases hy
        rw [hf] at hp; cases hp
      simpa using this

theorem provides_congr {s s' : State} (hs : s'.services = s.services) (hq : ∀ i, s'.procs i = s.procs i) (q : Proc) (n : Nat) : s'.provides q n ↔ s.provides q n := by
  have key : ∀ t : State, t.provides q n ↔ ∃ i, t.procs i = some q ∧ ∃ v ∈ t.services, v.name = n ∧ i ∈ v.seqs := by
    intro t
    constructor
    · rintro ⟨i, x, hx, hp, h⟩
      exact ⟨i, procs_some.mpr ⟨x, hx, hp⟩, h⟩
    · rintro ⟨i, hp, h⟩
      obtain ⟨x, hx, hp⟩ := procs_some.mp hp
      exact ⟨i, x, hx, hp, h⟩
  rw [key, key, hs]
  simp only [hq]

theorem cprovides_congr {s s' : State} (hs : s'.services = s.services) (hc : s'.con = s.con) (q : Proc) (n : Nat) (o k : Int) : s'.cprovides q n o k ↔ s.cprovides q n o k := by
  unfold State.cprovides
  rw [hs, hc]

theorem again_frame {s : State} (h : Inv s) (ls : List Lookup) (e : Env) : (∀ i, (s.again ls e).procs i = s.procs i) ∧ (s.again ls e).con = s.con := by
  have key : Inv (s.again ls e) ∧ (∀ i, (s.again ls e).procs i = s.procs i) ∧ (s.again ls e).con = s.con := by
    refine again_ind (P := fun t => Inv t ∧ (∀ i, t.procs i = s.procs i) ∧ t.con = s.con) ?_ ls ⟨h, fun _ => rfl, rfl⟩
    intro t r ⟨h1, h2, h3⟩
    refine ⟨h1.lookup r e, ?_⟩
    rw [← h3]
    have := lookup_outcome h1 r e
    generalize t.lookup r e = t' at this
    cases this with
    | discover =>
      have := discover_same t r e
      exact ⟨fun i => by rw [← h2]; unfold State.procs; rw [this.seq], this.con⟩
    | seq v i x => exact ⟨fun j => by rw [← h2]; exact procs_modify (f := SeqI.reserve r v.name) (i := i) rfl (fun _ => rfl) j, rfl⟩
    | _ => exact ⟨h2, rfl⟩
  exact key.2

/-- The death of a process: no service lists an instance of it any more, and nothing else changes in what the services list. -/
theorem C29_exit (c : Config) (is : List In) (pid : Nat) (e : Env) (q : Proc) (n : Nat) (o k : Int) :
    let s := (State.init c).run is
    ((s.step (.exit pid e)).provides q n ↔ s.provides q n ∧ q.pid ≠ pid) ∧
    ((s.step (.exit pid e)).cprovides q n o k ↔ s.cprovides q n o k ∧ q.pid ≠ pid) := by
  intro s
  have hi : Inv (s.emit (.recv (.exit pid e))) := (Inv.run (Inv.init c) is).same ⟨rfl, rfl, rfl⟩
  have hp : Inv ((s.emit (.recv (.exit pid e))).exitPrep pid) := (hi.without fun q => q.pid == pid).same ⟨rfl, rfl, rfl⟩
  have heq : s.step (.exit pid e) = ((s.emit (.recv (.exit pid e))).exitPrep pid).again s.lookups e := exit_eq hi pid e
  rw [heq]
  constructor
  · rw [provides_congr (again_services hp _ _) (again_frame hp _ _).1]
    refine Iff.trans (provides_congr (s := s.without fun q => q.pid == pid) ?_ ?_ q n) ?_
    · rfl
    · exact fun _ => rfl
    · rw [provides_without]; simp
  · rw [cprovides_congr (again_services hp _ _) (again_frame hp _ _).2]
    refine Iff.trans (cprovides_congr (s := s.without fun q => q.pid == pid) ?_ ?_ q n o k) ?_
    · rfl
    · rfl
    · rw [cprovides_without]; simp

/-- The same when a process withdraws altogether (an advertise that neither adds nor removes a service). -/
theorem C29_withdraw (c : Config) (is : List In) (p : Proc) (alias : Nat) (e : Env) (q : Proc) (n : Nat) (o k : Int) :
    let s := (State.init c).run is
    ((s.step (.advertise p alias [] [] e)).provides q n ↔ s.provides q n ∧ q.pid ≠ p.pid) ∧
    ((s.step (.advertise p alias [] [] e)).cprovides q n o k ↔ s.cprovides q n o k ∧ q.pid ≠ p.pid) := by
  intro s
  have hi : Inv (s.emit (.recv (.advertise p alias [] [] e))) := (Inv.run (Inv.init c) is).same ⟨rfl, rfl, rfl⟩
  have heq : s.step (.advertise p alias [] [] e) = (s.emit (.recv (.advertise p alias [] [] e))).without fun q => q.pid == p.pid := congrArg Prod.fst (remove_eq hi _)
  rw [heq]
  constructor
  · refine Iff.trans (provides_congr (s := s.without fun q => q.pid == p.pid) ?_ ?_ q n) ?_
    · rfl
    · exact fun _ => rfl
    · rw [provides_without]; simp
  · refine Iff.trans (cprovides_congr (s := s.without fun q => q.pid == p.pid) ?_ ?_ q n o k) ?_
    · rfl
    · rfl
    · rw [cprovides_without]; simp

/-- The same when a concurrent instance is reset; here an instance is known by its ipc. -/
theorem C29_reset (c : Config) (is : List In) (p q : Proc) (n : Nat) (o k : Int) :
    let s := (State.init c).run is
    ((s.step (.creset p)).provides q n ↔ s.provides q n ∧ q.ipc ≠ p.ipc) ∧
    ((s.step (.creset p)).cprovides q n o k ↔ s.cprovides q n o k ∧ q.ipc ≠ p.ipc) := by
  intro s
  have hi : Inv (s.emit (.recv (.creset p))) := (Inv.run (Inv.init c) is).same ⟨rfl, rfl, rfl⟩
  have heq : s.step (.creset p) = (s.emit (.recv (.creset p))).without fun q => q.ipc == p.ipc := congrArg Prod.fst (remove_eq hi _)
  rw [heq]
  constructor
  · refine Iff.trans (provides_congr (s := s.without fun q => q.ipc == p.ipc) ?_ ?_ q n) ?_
    · rfl
    · exact fun _ => rfl
    · rw [provides_without]; simp
  · refine Iff.trans (cprovides_congr (s := s.without fun q => q.ipc == p.ipc) ?_ ?_ q n o k) ?_
    · rfl
    · rfl
    · rw [cprovides_without]; simp

/-- At any time every instance a service lists exists. -/
theorem C29_sound (c : Config) (is : List In) : ((State.init c).run is).sound := by
  have h := Inv.run (Inv.init c) is
  refine fun v hv => ⟨fun i hi => ?_, h.cons v hv⟩
  obtain ⟨x, hx, -⟩ := h.seqs v hv i hi
  exact ⟨x, hx⟩

-- a process that provides, and dies; another one stays
example : ((State.init exConf).run [exLocal, .advertise ⟨2, 2⟩ 0 [7, 8] [] (exEnv 0), exRemote 50 1 0]).services =
    [⟨7, [0, 1], [⟨0, 1, 0⟩], none⟩, ⟨8, [1], [], none⟩] ∧
    ((State.init exConf).run [exLocal, .advertise ⟨2, 2⟩ 0 [7, 8] [] (exEnv 0), exRemote 50 1 0, .exit 2 (exEnv 2)]).services =
    [⟨7, [0], [⟨0, 1, 0⟩], none⟩, ⟨8, [], [], none⟩] := by decide +kernel

/-! ## C55: a server gets calls only to services it offers -/

/-- With a fatal timeout contract: the withdrawal of a service is not noted, when the call has timed out. -/
theorem C55_offers_refuted : ¬ ∀ (c : Config) (is : List In) (a : List Ev) (r : Req) (t : Proc) (left : Option Int),
    At ((State.init c).run is).tr a (.idle r .sequential t left) → ∃ ns, offers c.restriction t.ipc a = some (t, ns) ∧ r.name ∈ ns := by
  intro h
  have htr : ((State.init { exConf with fatal := true }).run [exLocal, .lookup (exReqD 10 100 20) (exEnv 1), .alarm (exEnv 21), .advertise ⟨1, 1⟩ 0 [] [7] (exEnv 22),
      .ack ⟨1, 1⟩ 100 none (exEnv 23), exLookup 11 101]).tr = ((State.init { exConf with fatal := true }).run [exLocal, .lookup (exReqD 10 100 20) (exEnv 1), .alarm (exEnv 21), .advertise ⟨1, 1⟩ 0 [] [7] (exEnv 22),
      .ack ⟨1, 1⟩ 100 none (exEnv 23), exLookup 11 101]).tr.take 9 ++ .idle (exReq 11 101 7) .sequential ⟨1, 1⟩ none :: [] := by decide +kernel
  obtain ⟨ns, h1, h2⟩ := h _ _ _ _ _ _ ⟨[], htr⟩
  have : offers exConf.restriction 1 (((State.init { exConf with fatal := true }).run [exLocal, .lookup (exReqD 10 100 20) (exEnv 1), .alarm (exEnv 21), .advertise ⟨1, 1⟩ 0 [] [7] (exEnv 22),
      .ack ⟨1, 1⟩ 100 none (exEnv 23), exLookup 11 101]).tr.take 9) = some (⟨1, 1⟩, []) := by decide +kernel
  rw [show ({ exConf with fatal := true } : Config).restriction = exConf.restriction from rfl, this] at h1
  cases h1
  cases h2

/-- Without it, a sequential instance that is handed out is one that has advertised the service (and may offer it), and has not withdrawn
it, nor been asked to shut down, nor died. -/
theorem C55_offers_partial (c : Config) (hc : c.fatal = false) (is : List In) (a : List Ev) (r : Req) (t : Proc) (left : Option Int)
    (h : At ((State.init c).run is).tr a (.idle r .sequential t left)) : ∃ ns, offers c.restriction t.ipc a = some (t, ns) ∧ r.name ∈ ns := by
  have := (Inv3.run (ex := False) (Inv3.init c hc) is (fun h => h.elim)).2.good a _ h
  rw [run_restriction] at this
  exact this

-- a restriction: the server with alias 3 may not offer service 8
example : ((State.init { exConf with restriction := [(3, [7])] }).run [.advertise ⟨1, 1⟩ 3 [7, 8] [] (exEnv 0), exLookup 10 100, .lookup (exReq 11 101 8) (exEnv 1)]).tr =
    [.recv (.advertise ⟨1, 1⟩ 3 [7, 8] [] (exEnv 0)), .recv (exLookup 10 100), .idle (exReq 10 100 7) .sequential ⟨1, 1⟩ none, .recv (.lookup (exReq 11 101 8) (exEnv 1)),
     .discover 8 101, .absent 11 101 8] := by decide +kernel

/-! ## C56: every lookup is answered once -/

/-- Of the lookups received with a correlation, each is answered once, or waits, or has been discarded. -/
theorem C56_answered_once (c : Config) (is : List In) (corr : Nat) :
    let s := (State.init c).run is
    answers corr s.tr + s.waiting corr ≤ asked corr s.tr ∧ asked corr s.tr ≤ answers corr s.tr + s.waiting corr + discards corr s.tr := by
  have := (BInv.run (ok := False) (Inv.init c) (BInv.init c) is (fun h => h.elim)).count corr
  simpa [State.waiting, List.countP_map, Function.comp_def] using this

/-- An answer goes to who has asked, and is about what has been asked. -/
theorem C56_answers_who_asked (c : Config) (is : List In) (a : List Ev) (e : Ev) (h : At ((State.init c).run is).tr a e) : GoodAnswer a e :=
  (BInv.run (ok := False) (Inv.init c) (BInv.init c) is (fun h => h.elim)).good a e h

-- one answered, one waiting, one discarded
example : let s := (State.init exConf).run [exLocal, exLookup 10 100, exLookup 11 101, exLookup 12 102, .discard ⟨12, 12⟩ 102 false]
    (answers 100 s.tr = 1 ∧ s.waiting 100 = 0) ∧ (answers 101 s.tr = 0 ∧ s.waiting 101 = 1) ∧ (asked 102 s.tr = 1 ∧ answers 102 s.tr = 0 ∧ s.waiting 102 = 0 ∧ discards 102 s.tr = 1) := by decide +kernel

/-! ## C59: local instances first -/

/-- A concurrent (remote) instance is handed out only if no sequential (local) one offers the service: in histories without shutdown, and
without fatal timeout contract. -/
theorem C59_local_first_partial (c : Config) (hc : c.fatal = false) (is : List In) (hp : ∀ m ∈ is, m.isPrepare = false) (a : List Ev) (r : Req) (t : Proc) (left : Option Int)
    (h : At ((State.init c).run is).tr a (.idle r .concurrent t left)) (ipc : Nat) (q : Proc) (ns : List Nat) (ho : offers c.restriction ipc a = some (q, ns)) : r.name ∉ ns := by
  have := (Inv3.run (ex := True) (Inv3.init c hc) is (fun _ => hp)).2.goodLocal trivial a _ h
  rw [run_restriction] at this
  exact this ipc q ns ho

-- both: the local one is handed out, and then the lookup waits for it
example : ((State.init exConf).run [exRemote 50 0 0, exLocal, exLookup 10 100, exLookup 11 101, .advertise ⟨1, 1⟩ 0 [] [7] (exEnv 4), exLookup 12 102]).tr =
    [.recv (exRemote 50 0 0), .recv exLocal, .recv (exLookup 10 100), .idle (exReq 10 100 7) .sequential ⟨1, 1⟩ none, .recv (exLookup 11 101),
     .recv (.advertise ⟨1, 1⟩ 0 [] [7] (exEnv 4)), .recv (exLookup 12 102), .idle (exReq 12 102 7) .concurrent ⟨50, 50⟩ none] := by decide +kernel

end Casual.Service
