import Verif.Conv.Home
/-!
At most one descriptor for a conversation in a process, and at most one side in control.
-/
namespace Casual.Conv

def isOpen (c : Nat) : Option Val → Bool
  | some v => v.corr == c
  | none => false

def hasControl (c : Nat) : Option Val → Bool
  | some v => v.corr == c && v.duplex == .send
  | none => false

def isRequest (c : Nat) : Msg → Bool
  | .request c' _ _ _ => c' == c
  | _ => false

/-- The receiver of the message will be in control. -/
def grants (c : Nat) : Msg → Bool
  | .request c' _ dx _ => c' == c && dx == .send
  | .data c' dx code _ _ => c' == c && dx == .send && code == .absent
  | _ => false

/-- The places of the conversation in the process: descriptors, and the request. -/
def places (c : Nat) (p : Proc) : Nat := p.table.countP (isOpen c) + p.inbox.countP (isRequest c)

/-- The rights to send in the process: descriptors in control, and messages that give control. -/
def rights (c : Nat) (p : Proc) : Nat := p.table.countP (hasControl c) + p.inbox.countP (grants c)

def one (b : Bool) : Nat := if b then 1 else 0

@[simp] theorem one_false : one false = 0 := rfl
@[simp] theorem one_true : one true = 1 := rfl
theorem one_le (b : Bool) : one b ≤ 1 := by cases b <;> decide

@[simp] theorem receive_ne_send : (Duplex.receive == Duplex.send) = false := rfl
@[simp] theorem send_eq_send : (Duplex.send == Duplex.send) = true := rfl

theorem countP_cons' {f : Msg → Bool} (m : Msg) (l : List Msg) : (m :: l).countP f = l.countP f + one (f m) := by
  rw [List.countP_cons]; rfl

theorem countP_set {f : Option Val → Bool} : ∀ {t : Table} {i : Nat} {a b : Option Val}, t[i]? = some a →
    (t.set i b).countP f + one (f a) = t.countP f + one (f b)
  | [], i, a, b, h => by simp at h
  | x :: t, 0, a, b, h => by
    simp only [List.getElem?_cons_zero, Option.some.injEq] at h
    subst h
    simp only [List.set_cons_zero, List.countP_cons, one]
    omega
  | x :: t, i + 1, a, b, h => by
    simp only [List.getElem?_cons_succ] at h
    have := countP_set (f := f) (b := b) h
    simp only [List.set_cons_succ, List.countP_cons]
    omega

theorem countP_reserve {f : Option Val → Bool} (hf : f none = false) (t : Table) (v : Val) :
    (reserve t v).2.countP f = t.countP f + one (f (some v)) := by
  rcases reserve_cases t v with ⟨h, e⟩ | ⟨_, e⟩
  · rw [e]
    have := countP_set (f := f) (b := some v) h
    rw [hf] at this
    simp only [one, Bool.false_eq_true, if_false] at this ⊢
    omega
  · rw [e]
    simp [List.countP_append, List.countP_cons, one]

theorem countP_mid {f : Msg → Bool} (pre : List Msg) (m : Msg) (post : List Msg) :
    (pre ++ m :: post).countP f = (pre ++ post).countP f + one (f m) := by
  simp only [List.countP_append, List.countP_cons, one]
  omega

theorem countP_arrive (f : Msg → Bool) (p : Proc) (m : Msg) :
    (arrive p m).inbox.countP f ≤ p.inbox.countP f + one (f m) := by
  rcases arrive_inbox p m with e | ⟨e, _, _⟩
  · rw [e]; omega
  · rw [e, List.countP_append]; simp [List.countP_cons, one]

theorem countP_discard (f : Msg → Bool) (p : Proc) (c : Nat) :
    (discard p c).inbox.countP f ≤ p.inbox.countP f := by
  rcases discard_inbox p c with e | ⟨pre, m, post, e1, _, e2⟩
  · rw [e]; omega
  · rw [e1, e2, countP_mid]; omega

theorem places_arrive (c : Nat) (p : Proc) (m : Msg) : places c (arrive p m) ≤ places c p + one (isRequest c m) := by
  unfold places
  rw [arrive_table]
  have := countP_arrive (isRequest c) p m
  omega

theorem rights_arrive (c : Nat) (p : Proc) (m : Msg) : rights c (arrive p m) ≤ rights c p + one (grants c m) := by
  unfold rights
  rw [arrive_table]
  have := countP_arrive (grants c) p m
  omega

/-- The table and the inbox are all that matters. -/
theorem places_congr {c : Nat} {p p' : Proc} (h1 : p'.table = p.table) (h2 : p'.inbox = p.inbox) :
    places c p' = places c p := by unfold places; rw [h1, h2]

theorem rights_congr {c : Nat} {p p' : Proc} (h1 : p'.table = p.table) (h2 : p'.inbox = p.inbox) :
    rights c p' = rights c p := by unfold rights; rw [h1, h2]

/-- A descriptor is closed. -/
theorem close_places {c : Nat} {p p' : Proc} {i : Nat} {v : Val} (ht : p.table[i]? = some (some v))
    (h1 : p'.table = close p.table i) (h2 : p'.inbox.countP (isRequest c) ≤ p.inbox.countP (isRequest c)) :
    places c p' + one (v.corr == c) ≤ places c p := by
  unfold places
  rw [h1]
  unfold close
  have := countP_set (f := isOpen c) (b := none) ht
  simp only [isOpen, one_false] at this ⊢
  omega

theorem close_rights {c : Nat} {p p' : Proc} {i : Nat} {v : Val} (ht : p.table[i]? = some (some v))
    (h1 : p'.table = close p.table i) (h2 : p'.inbox.countP (grants c) ≤ p.inbox.countP (grants c)) :
    rights c p' ≤ rights c p := by
  unfold rights
  rw [h1]
  unfold close
  have := countP_set (f := hasControl c) (b := none) ht
  simp only [hasControl, one_false] at this ⊢
  omega

/-- Nobody has anything of a conversation that there is not. -/
theorem Home.fresh {w : World} (h : Home w) {c r : Nat} (hc : w.convs[c]? = none) :
    places c (w.procs r) = 0 ∧ rights c (w.procs r) = 0 := by
  have ht : ∀ o ∈ (w.procs r).table, isOpen c o = false ∧ hasControl c o = false := by
    intro o ho
    cases o with
    | none => exact ⟨rfl, rfl⟩
    | some v =>
      obtain ⟨k, hk, _⟩ := h.tab r v ho
      have : v.corr ≠ c := by intro e; rw [e, hc] at hk; cases hk
      simp [isOpen, hasControl, this]
  have hm : ∀ m ∈ (w.procs r).inbox, isRequest c m = false ∧ grants c m = false := by
    intro m hm
    obtain ⟨k, hk, _⟩ := h.msg r m hm
    have : m.corr ≠ c := by intro e; rw [e, hc] at hk; cases hk
    cases m <;> simp [isRequest, grants, Msg.corr] at this ⊢ <;> simp [this]
  have z : ∀ (f : Option Val → Bool), (∀ o ∈ (w.procs r).table, f o = false) → (w.procs r).table.countP f = 0 := by
    intro f hf
    rw [List.countP_eq_zero]
    intro o ho
    rw [hf o ho]
    simp
  have z' : ∀ (f : Msg → Bool), (∀ o ∈ (w.procs r).inbox, f o = false) → (w.procs r).inbox.countP f = 0 := by
    intro f hf
    rw [List.countP_eq_zero]
    intro o ho
    rw [hf o ho]
    simp
  unfold places rights
  rw [z _ (fun o ho => (ht o ho).1), z _ (fun o ho => (ht o ho).2), z' _ (fun o ho => (hm o ho).1), z' _ (fun o ho => (hm o ho).2)]
  exact ⟨rfl, rfl⟩

/-- What a step does to the places of a conversation: they do not get more, unless the conversation is new. -/
theorem Move.places {srv : Nat → Bool} {w w' : World} {a : Act} (h : Home w) (hm : Move srv w a w') (c r : Nat) :
    Conv.places c (w'.procs r) ≤ Conv.places c (w.procs r) ∨
      (c = w.convs.length ∧ Conv.places c (w'.procs r) ≤ 1) := by
  cases hm with
  | same => left; omega
  | drop q good m rest hs ha hb hc hi hm =>
    left
    simp only [procs_set]
    split
    · rename_i e; subst e
      unfold Conv.places
      rw [hi, countP_cons']
      simp only
      omega
    · omega
  | started q c' src dx x rest hs ha hb hc hi hu =>
    left
    have key : Conv.places c ({ (w.procs q) with
          inbox := rest, table := (reserve (w.procs q).table ⟨c', src, dx, false⟩).2, busy := true,
          frame := some ⟨c', src, (reserve (w.procs q).table ⟨c', src, dx, false⟩).1⟩ } : Proc) = Conv.places c (w.procs q) := by
      unfold Conv.places
      simp only
      rw [hi, countP_cons', countP_reserve (by rfl)]
      simp only [isOpen, isRequest]
      omega
    simp only [procs_note, procs_deliver, procs_set]
    split
    · rename_i e; subst e
      refine Nat.le_trans (places_arrive _ _ _) ?_
      simp only [isRequest, one_false, Nat.add_zero]
      split
      · rename_i e; subst e; rw [key]; omega
      · omega
    · split
      · rename_i e; subst e; rw [key]; omega
      · omega
  | orphan q c' src dx x rest hs ha hb hi hu =>
    left
    simp only [procs_note, procs_set]
    split
    · rename_i e; subst e
      unfold Conv.places
      rw [hi, countP_cons']
      simp only
      omega
    · omega
  | failed q c' src dx x rest hs ha hb hi =>
    left
    simp only [procs_note, procs_deliver, procs_set]
    split
    · rename_i e; subst e
      unfold Conv.places
      rw [hi, countP_cons']
      simp only
      omega
    · rename_i e
      split
      · rename_i e2; subst e2
        rw [if_neg e]
        refine Nat.le_trans (places_arrive _ _ _) ?_
        simp [isRequest, one]
      · omega
  | begin q hs ha hb => left; simp only [procs_set]; split <;> first | (rename_i e; subst e; exact Nat.le_refl _) | exact Nat.le_refl _
  | finish q hs hf hn => left; simp only [procs_set]; split <;> first | (rename_i e; subst e; exact Nat.le_refl _) | exact Nat.le_refl _
  | refused p target so ro x t ht =>
    left
    simp only [procs_set]
    split
    · rename_i e; subst e
      unfold Conv.places
      rcases ht with rfl | rfl
      · exact Nat.le_refl _
      · simp [List.countP_append, List.countP_cons, isOpen]
    · omega
  | asked p q so ro x hf hq hu hx =>
    by_cases hc : c = w.convs.length
    · right
      refine ⟨hc, ?_⟩
      subst hc
      have f := fun r => (h.fresh (c := w.convs.length) (r := r) (by simp)).1
      simp only [procs_note, procs_deliver, procs_set]
      split
      · rename_i e; subst e
        refine Nat.le_trans (places_arrive _ _ _) ?_
        rw [f]
        have := one_le (isRequest w.convs.length (.request w.convs.length p (if ro then Duplex.send else .receive) x))
        omega
      · split
        · rename_i e; subst e
          have := f r
          unfold Conv.places at this ⊢
          simp only
          rw [countP_reserve (by rfl)]
          have := one_le (isOpen w.convs.length (some ⟨w.convs.length, q, if ro then .receive else .send, true⟩))
          omega
        · rw [f]; omega
    · left
      have hc' : (w.convs.length == c) = false := by simp; omega
      simp only [procs_note, procs_deliver, procs_set]
      split
      · rename_i e; subst e
        refine Nat.le_trans (places_arrive _ _ _) ?_
        simp [isRequest, one, hc']
      · split
        · rename_i e; subst e
          unfold Conv.places
          simp only
          rw [countP_reserve (by rfl)]
          simp [isOpen, one, hc']
        · omega
  | connected p i c' pre post ha hc hi =>
    left
    simp only [procs_note, procs_set]
    split
    · rename_i e; subst e
      unfold Conv.places
      rw [hi, countP_mid]
      simp only
      omega
    · omega
  | sent p d x ro v hf ht hd hn hu =>
    left
    have key : Conv.places c ({ (w.procs p) with table := (w.procs p).table.set d.toNat (some { v with duplex := if ro then Duplex.receive else .send }) } : Proc) = Conv.places c (w.procs p) := by
      unfold Conv.places
      simp only
      have := countP_set (f := isOpen c) (b := some { v with duplex := if ro then Duplex.receive else .send }) ht
      simp only [isOpen] at this
      omega
    simp only [procs_note, procs_deliver, procs_set]
    split
    · rename_i e; subst e
      refine Nat.le_trans (places_arrive _ _ _) ?_
      simp only [isRequest, one_false, Nat.add_zero]
      split
      · rename_i e; subst e; rw [key]; omega
      · omega
    · split
      · rename_i e; subst e; rw [key]; omega
      · omega
  | ended a p d v m pre post hact hf ht hi hm hp =>
    left
    simp only [procs_note, procs_set]
    split
    · rename_i e; subst e
      have := close_places (c := c) (p' := (w.procs r).ended d.toNat (pre ++ post)) ht rfl (by
        rw [hi, countP_mid]; simp only [Proc.ended]; omega)
      omega
    · omega
  | lost p d a v hact hf ht hu =>
    left
    simp only [procs_note, procs_set]
    split
    · rename_i e; subst e
      have := close_places (c := c) (p' := { (w.procs r) with table := close (w.procs r).table d.toNat }) ht rfl (Nat.le_refl _)
      exact Nat.le_trans (Nat.le_add_right _ _) this
    · omega
  | got p d nb v dx u x pre post hf ht hd hi hp hn =>
    left
    simp only [procs_note, procs_set]
    split
    · rename_i e; subst e
      unfold Conv.places
      rw [hi, countP_mid]
      simp only
      have := countP_set (f := isOpen c) (b := some { v with duplex := if dx = .send then Duplex.send else .receive }) ht
      simp only [isOpen] at this
      omega
    · omega
  | disconnected p d v hf ht hv hu =>
    left
    have key : Conv.places c (if v.duplex = .receive then discard { (w.procs p) with table := close (w.procs p).table d.toNat } v.corr else { (w.procs p) with table := close (w.procs p).table d.toNat }) ≤ Conv.places c (w.procs p) := by
      split
      · have := close_places (c := c) (p' := discard { (w.procs p) with table := close (w.procs p).table d.toNat } v.corr) ht
          (by rw [discard_table]) (countP_discard _ _ _)
        exact Nat.le_trans (Nat.le_add_right _ _) this
      · have := close_places (c := c) (p' := { (w.procs p) with table := close (w.procs p).table d.toNat }) ht rfl (Nat.le_refl _)
        exact Nat.le_trans (Nat.le_add_right _ _) this
    simp only [procs_note, procs_deliver, procs_set]
    split
    · rename_i e; subst e
      refine Nat.le_trans (places_arrive _ _ _) ?_
      simp only [isRequest, one_false, Nat.add_zero]
      split
      · rename_i e; subst e; exact key
      · omega
    · split
      · rename_i e; subst e; exact key
      · omega
  | returned q f success user x transOk v hf hfr hu hl =>
    left
    simp only [procs_set, procs_note, procs_deliver]
    split
    · rename_i e; subst e
      have := close_places (c := c) (p' := { (w.procs r) with table := close (w.procs r).table f.desc, busy := false, frame := none }) hl rfl (Nat.le_refl _)
      exact Nat.le_trans (Nat.le_add_right _ _) this
    · split
      · rename_i e; subst e
        refine Nat.le_trans (places_arrive _ _ _) ?_
        simp [isRequest, one]
      · omega
  | thrown q f success user x transOk hf hfr hu hl =>
    left
    simp only [procs_set, procs_note, procs_deliver]
    split
    · rename_i e; subst e; exact Nat.le_refl _
    · split
      · rename_i e; subst e
        refine Nat.le_trans (places_arrive _ _ _) ?_
        simp [isRequest, one]
      · omega
  | unheard q f success user x transOk hf hfr hu =>
    left; simp only [procs_note, procs_set]; split <;> first | (rename_i e; subst e; exact Nat.le_refl _) | exact Nat.le_refl _
  | died p => left; simp only [procs_set]; split <;> first | (rename_i e; subst e; exact Nat.le_refl _) | exact Nat.le_refl _
  | reported c' k hk =>
    left
    simp only [procs_note, procs_deliver]
    split
    · rename_i e; subst e
      refine Nat.le_trans (places_arrive _ _ _) ?_
      simp [isRequest, one]
    · omega

def One (w : World) : Prop := ∀ c r, places c (w.procs r) ≤ 1

theorem One.move {srv : Nat → Bool} {w w' : World} {a : Act} (h : One w) (hh : Home w) (hm : Move srv w a w') : One w' := by
  intro c r
  rcases hm.places hh c r with h' | h'
  · exact Nat.le_trans h' (h c r)
  · exact h'.2

/-- Both sides together. -/
def both (c : Nat) (k : Parties) (w : World) : Nat :=
  rights c (w.procs k.initiator) + rights c (w.procs k.subordinate)

def Single (w : World) : Prop := ∀ c k, w.convs[c]? = some k → both c k w ≤ 1

theorem both_le {c : Nat} {k : Parties} {w w' : World} (h : ∀ r, rights c (w'.procs r) ≤ rights c (w.procs r)) :
    both c k w' ≤ both c k w := by
  unfold both
  have h1 := h k.initiator
  have h2 := h k.subordinate
  omega

theorem rights_cons {c : Nat} {p : Proc} {m : Msg} {rest : List Msg} (hi : p.inbox = m :: rest) (p' : Proc)
    (h1 : p'.table = p.table) (h2 : p'.inbox = rest) : rights c p' + one (grants c m) = rights c p := by
  unfold rights
  rw [hi, h1, h2, countP_cons']
  omega

theorem procs_two {w : World} {p q : Nat} {X : Proc} {m : Msg} (h : q ≠ p) :
    ((w.set p X).deliver q m).procs p = X ∧ ((w.set p X).deliver q m).procs q = arrive (w.procs q) m := by
  constructor
  · rw [procs_deliver, if_neg (fun e => h e.symm), procs_set, if_pos rfl]
  · rw [procs_deliver, if_pos rfl, procs_set, if_neg h]

theorem procs_two' {w : World} {p q : Nat} {X : Proc} {m : Msg} {cs : List Parties} (h : q ≠ p) :
    (({ (w.set p X) with convs := cs } : World).deliver q m).procs p = X ∧
      (({ (w.set p X) with convs := cs } : World).deliver q m).procs q = arrive (w.procs q) m := by
  constructor
  · rw [procs_deliver, if_neg (fun e => h e.symm)]
    show (w.set p X).procs p = X
    rw [procs_set, if_pos rfl]
  · rw [procs_deliver, if_pos rfl]
    show arrive ((w.set p X).procs q) m = _
    rw [procs_set, if_neg h]

theorem Single.move {srv : Nat → Bool} {w w' : World} {a : Act} (h : Single w) (hh : Home w) (hm : Move srv w a w') :
    Single w' := by
  have mono : w'.convs = w.convs → (∀ c r, rights c (w'.procs r) ≤ rights c (w.procs r)) → Single w' := by
    intro hc hr c k hk
    rw [hc] at hk
    exact Nat.le_trans (both_le (hr c)) (h c k hk)
  cases hm with
  | same => exact h
  | drop q good m rest hs ha hb hc hi hm =>
    apply mono rfl
    intro c r
    simp only [procs_set]
    split
    · rename_i e; subst e
      have := rights_cons (c := c) hi { (w.procs r) with inbox := rest } rfl rfl
      exact Nat.le_trans (Nat.le_add_right _ _) (Nat.le_of_eq this)
    · omega
  | started q c' src dx x rest hs ha hb hc hi hu =>
    apply mono (by simp)
    intro c r
    have key : rights c ({ (w.procs q) with
          inbox := rest, table := (reserve (w.procs q).table ⟨c', src, dx, false⟩).2, busy := true,
          frame := some ⟨c', src, (reserve (w.procs q).table ⟨c', src, dx, false⟩).1⟩ } : Proc) = rights c (w.procs q) := by
      unfold rights
      simp only
      rw [hi, countP_cons', countP_reserve (by rfl)]
      simp only [hasControl, grants]
      omega
    simp only [procs_note, procs_deliver, procs_set]
    split
    · rename_i e; subst e
      refine Nat.le_trans (rights_arrive _ _ _) ?_
      simp only [grants, one_false, Nat.add_zero]
      split
      · rename_i e; subst e; rw [key]; omega
      · omega
    · split
      · rename_i e; subst e; rw [key]; omega
      · omega
  | orphan q c' src dx x rest hs ha hb hi hu =>
    apply mono rfl
    intro c r
    simp only [procs_note, procs_set]
    split
    · rename_i e; subst e
      have := rights_cons (c := c) hi { (w.procs r) with inbox := rest, alive := false } rfl rfl
      exact Nat.le_trans (Nat.le_add_right _ _) (Nat.le_of_eq this)
    · omega
  | failed q c' src dx x rest hs ha hb hi =>
    apply mono (by simp)
    intro c r
    simp only [procs_note, procs_deliver, procs_set]
    split
    · rename_i e; subst e
      have := rights_cons (c := c) hi { (w.procs r) with inbox := rest, alive := false } rfl rfl
      exact Nat.le_trans (Nat.le_add_right _ _) (Nat.le_of_eq this)
    · rename_i e
      split
      · rename_i e2; subst e2
        rw [if_neg e]
        refine Nat.le_trans (rights_arrive _ _ _) ?_
        simp [grants, one]
      · omega
  | begin q hs ha hb => apply mono rfl; intro c r; simp only [procs_set]; split <;> first | (rename_i e; subst e; exact Nat.le_refl _) | exact Nat.le_refl _
  | finish q hs hf hn => apply mono rfl; intro c r; simp only [procs_set]; split <;> first | (rename_i e; subst e; exact Nat.le_refl _) | exact Nat.le_refl _
  | refused p target so ro x t ht =>
    apply mono rfl
    intro c r
    simp only [procs_set]
    split
    · rename_i e; subst e
      unfold rights
      rcases ht with rfl | rfl
      · exact Nat.le_refl _
      · simp [List.countP_append, List.countP_cons, hasControl]
    · omega
  | asked p q so ro x hf hq hu hx =>
    intro c k hk
    simp only [convs_note, convs_deliver] at hk
    by_cases hc : c = w.convs.length
    · subst hc
      have hk' : k = ⟨p, q⟩ := by simpa using hk.symm
      subst hk'
      have f := fun r => (hh.fresh (c := w.convs.length) (r := r) (by simp)).2
      unfold both
      rw [procs_note, (procs_two' hq).1, (procs_two' hq).2]
      have h1 := rights_arrive w.convs.length (w.procs q) (.request w.convs.length p (if ro then Duplex.send else .receive) x)
      have h2 : rights w.convs.length ({ (w.procs p) with
          table := (reserve (w.procs p).table ⟨w.convs.length, q, if ro then .receive else .send, true⟩).2,
          calling := some ((reserve (w.procs p).table ⟨w.convs.length, q, if ro then .receive else .send, true⟩).1,
            w.convs.length) } : Proc) = rights w.convs.length (w.procs p) + one (!ro) := by
        unfold rights
        simp only
        rw [countP_reserve (by rfl)]
        cases ro <;> simp [hasControl] <;> omega
      rw [f] at h1 h2
      refine Nat.le_trans (Nat.add_le_add (Nat.le_of_eq h2) h1) ?_
      cases ro <;> simp [grants]
    · have hk' : w.convs[c]? = some k := by
        by_cases hlt : c < w.convs.length
        · rw [List.getElem?_append_left hlt] at hk; exact hk
        · rw [List.getElem?_eq_none (by simp; omega)] at hk; cases hk
      refine Nat.le_trans (both_le ?_) (h c k hk')
      intro r
      have hc' : (w.convs.length == c) = false := by simp; omega
      simp only [procs_note, procs_deliver, procs_set]
      split
      · rename_i e; subst e
        refine Nat.le_trans (rights_arrive _ _ _) ?_
        simp [grants, one, hc']
      · split
        · rename_i e; subst e
          unfold rights
          simp only
          rw [countP_reserve (by rfl)]
          simp [hasControl, one, hc']
        · omega
  | connected p i c' pre post ha hc hi =>
    apply mono rfl
    intro c r
    simp only [procs_note, procs_set]
    split
    · rename_i e; subst e
      unfold rights
      rw [hi, countP_mid]
      simp only
      omega
    · omega
  | sent p d x ro v hf ht hd hn hu =>
    intro c k hk
    simp only [convs_note, convs_deliver, convs_set] at hk
    have hb := h c k hk
    have hset := countP_set (f := hasControl c) (b := some { v with duplex := if ro then Duplex.receive else .send }) ht
    obtain ⟨k', hk', _, hpq⟩ := hh.tab p v (mem_of_idx ht)
    have key : rights c ({ (w.procs p) with table := (w.procs p).table.set d.toNat (some { v with duplex := if ro then Duplex.receive else .send }) } : Proc) + one (ro && v.corr == c) = rights c (w.procs p) := by
      unfold rights
      simp only
      simp only [hasControl, hd] at hset ⊢
      cases ro <;> simp at hset ⊢ <;> omega
    have ar := fun P => rights_arrive c P (.data v.corr (if ro then Duplex.send else .receive) .absent 0 x)
    have hg : grants c (.data v.corr (if ro then Duplex.send else .receive) .absent 0 x) = (ro && v.corr == c) := by
      cases ro <;> simp [grants]
    rw [hg] at ar
    have hpp : v.peer ≠ p := by
      have := hh.par k' (List.mem_of_getElem? hk')
      rcases hpq with ⟨_, h1, h2⟩ | ⟨_, h1, h2⟩
      · rw [h1, h2]; exact fun e => this e.symm
      · rw [h1, h2]; exact this
    by_cases hvc : v.corr = c
    · rw [hvc, hk] at hk'
      simp only [Option.some.injEq] at hk'
      subst hk'
      unfold both at hb ⊢
      have a1 := ar (w.procs v.peer)
      rcases hpq with ⟨_, h1, h2⟩ | ⟨_, h1, h2⟩
      · rw [← h1, ← h2] at hb ⊢
        rw [procs_note, (procs_two hpp).1, (procs_two hpp).2]
        refine Nat.le_trans (Nat.add_le_add_left a1 _) ?_
        refine Nat.le_trans (Nat.le_of_eq ?_) hb
        rw [← key, Nat.add_comm (rights c (w.procs v.peer)), ← Nat.add_assoc]
      · rw [← h1, ← h2] at hb ⊢
        rw [procs_note, (procs_two hpp).1, (procs_two hpp).2]
        refine Nat.le_trans (Nat.add_le_add_right a1 _) ?_
        refine Nat.le_trans (Nat.le_of_eq ?_) hb
        rw [← key, Nat.add_assoc, Nat.add_comm (one _)]
    · have hz : one (ro && v.corr == c) = 0 := by
        have : (v.corr == c) = false := by simpa using hvc
        rw [this, Bool.and_false]; rfl
      rw [hz] at key ar
      refine Nat.le_trans (both_le ?_) hb
      intro r
      simp only [procs_note, procs_deliver, procs_set]
      split
      · rename_i e; subst e
        exact ar _
      · split
        · rename_i e; subst e; exact Nat.le_of_eq key
        · omega
  | ended a p d v m pre post hact hf ht hi hm hp =>
    apply mono rfl
    intro c r
    simp only [procs_note, procs_set]
    split
    · rename_i e; subst e
      exact close_rights (p' := (w.procs r).ended d.toNat (pre ++ post)) ht rfl (by
        rw [hi, countP_mid]; simp only [Proc.ended]; omega)
    · omega
  | lost p d a v hact hf ht hu =>
    apply mono rfl
    intro c r
    simp only [procs_note, procs_set]
    split
    · rename_i e; subst e
      exact close_rights (p' := { (w.procs r) with table := close (w.procs r).table d.toNat }) ht rfl (Nat.le_refl _)
    · omega
  | got p d nb v dx u x pre post hf ht hd hi hp hn =>
    apply mono rfl
    intro c r
    simp only [procs_note, procs_set]
    split
    · rename_i e; subst e
      unfold rights
      rw [hi, countP_mid]
      simp only
      have := countP_set (f := hasControl c) (b := some { v with duplex := if dx = .send then Duplex.send else .receive }) ht
      simp only [hasControl, grants, hd] at this ⊢
      by_cases hdx : dx = .send <;> simp [hdx] at this ⊢ <;> omega
    · omega
  | disconnected p d v hf ht hv hu =>
    apply mono (by simp)
    intro c r
    have key : rights c (if v.duplex = .receive then discard { (w.procs p) with table := close (w.procs p).table d.toNat } v.corr else { (w.procs p) with table := close (w.procs p).table d.toNat }) ≤ rights c (w.procs p) := by
      split
      · exact close_rights (p' := discard { (w.procs p) with table := close (w.procs p).table d.toNat } v.corr) ht
          (by rw [discard_table]) (countP_discard _ _ _)
      · exact close_rights (p' := { (w.procs p) with table := close (w.procs p).table d.toNat }) ht rfl (Nat.le_refl _)
    simp only [procs_note, procs_deliver, procs_set]
    split
    · rename_i e; subst e
      refine Nat.le_trans (rights_arrive _ _ _) ?_
      simp only [grants, one_false, Nat.add_zero]
      split
      · rename_i e; subst e; exact key
      · omega
    · split
      · rename_i e; subst e; exact key
      · omega
  | returned q f success user x transOk v hf hfr hu hl =>
    apply mono (by simp)
    intro c r
    simp only [procs_set, procs_note, procs_deliver]
    split
    · rename_i e; subst e
      exact close_rights (p' := { (w.procs r) with table := close (w.procs r).table f.desc, busy := false, frame := none }) hl rfl (Nat.le_refl _)
    · split
      · rename_i e; subst e
        refine Nat.le_trans (rights_arrive _ _ _) ?_
        simp [grants, one]
      · omega
  | thrown q f success user x transOk hf hfr hu hl =>
    apply mono (by simp)
    intro c r
    simp only [procs_set, procs_note, procs_deliver]
    split
    · rename_i e; subst e; exact Nat.le_refl _
    · split
      · rename_i e; subst e
        refine Nat.le_trans (rights_arrive _ _ _) ?_
        simp [grants, one]
      · omega
  | unheard q f success user x transOk hf hfr hu =>
    apply mono rfl; intro c r; simp only [procs_note, procs_set]; split <;> first | (rename_i e; subst e; exact Nat.le_refl _) | exact Nat.le_refl _
  | died p => apply mono rfl; intro c r; simp only [procs_set]; split <;> first | (rename_i e; subst e; exact Nat.le_refl _) | exact Nat.le_refl _
  | reported c' k hk =>
    apply mono (by simp)
    intro c r
    simp only [procs_note, procs_deliver]
    split
    · rename_i e; subst e
      refine Nat.le_trans (rights_arrive _ _ _) ?_
      simp [grants, one]
    · omega

structure Inv (w : World) : Prop where
  home : Home w
  one : One w
  single : Single w

theorem Inv.step {srv : Nat → Bool} {w : World} (h : Inv w) (a : Act) : Inv (step srv w a) :=
  have hm := step_move srv w a
  ⟨h.home.move hm, h.one.move h.home hm, h.single.move h.home hm⟩

theorem Inv.init : Inv {} :=
  ⟨Home.init, by intro c r; simp [places], by intro c k hk; simp at hk⟩

theorem Inv.foldl {srv : Nat → Bool} : ∀ (as : List Act) {w : World}, Inv w → Inv (as.foldl (Conv.step srv) w)
  | [], _, h => h
  | a :: as, _, h => Inv.foldl as (h.step a)

theorem Inv.run (srv : Nat → Bool) (as : List Act) : Inv (run srv as) := Inv.foldl as Inv.init

end Casual.Conv
