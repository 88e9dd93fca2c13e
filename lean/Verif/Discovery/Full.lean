import Verif.Discovery.Things

/-!
  What is missing in an answer was looked for everywhere (for C149): the invariant.
-/
namespace Casual.Discovery

variable {cs : List SvcCfg}

/-! ### What a discovery that is under way has found out -/

/-- As `Denied`, or an answer is waited for. -/
def Denying (cs : List SvcCfg) (start rest : List Item) (pend : List Pend) (t : Thing) (p : Handle) : Prop :=
  ∃ c w, w.wants (t.outside (currentCfg cs start)) ∧
    (Item.lost (.request p c w) ∈ rest ∨
     (Item.out (.request p c w) ∈ rest ∧
      ((Gone rest p ∨ ∃ pre o post, rest = pre ++ .inp (.reply c o) :: post ∧ ¬ o.gives (currentCfg cs (start ++ pre)) t) ∨
       ∃ x ∈ pend, x.corr = c ∧ x.process = p ∧ x.state ≠ .failed)))

def Sought (cs : List SvcCfg) (log : List Item) (pend : List Pend) (content : Offer) (i : Input) (w : Want) : Prop :=
  ∃ start rest, log = start ++ rest ∧ Item.inp i ∈ start ∧ ∀ t, w.wants t → content.has t ∨
    ∀ p ∈ registered start, p.abilities.discover = true → Denying cs start rest pend t p.process

/-- As `LookedUp`, or an answer is waited for; what has been answered is `received`. -/
def Looking (rest : List Item) (scope : Scope) (w : Want) (pend : List Pend) (received : List Offer) (p : Handle) : Prop :=
  ∃ c, Item.lost (.lookup p c scope w) ∈ rest ∨
    (Item.out (.lookup p c scope w) ∈ rest ∧ ((Gone rest p ∨ ∃ o ∈ received, Item.inp (.lookupReply c o) ∈ rest) ∨
      ∃ x ∈ pend, x.corr = c ∧ x.process = p ∧ x.state = .pending))

def LSought (log : List Item) (scope : Scope) (pend : List Pend) (received : List Offer) (r : Req) : Prop :=
  ∃ start rest, log = start ++ rest ∧ Item.inp (.request (decide (scope = .extended)) r) ∈ start ∧
    ∀ p ∈ registered start, p.abilities.lookup = true → Looking rest scope r.content pend received p.process

/-- The lookup is over. -/
def LDone (log : List Item) (scope : Scope) (content : Offer) (r : Req) : Prop :=
  Item.inp (.request (decide (scope = .extended)) r) ∈ log ∧ ∀ t, ¬ content.has t → NotHere log scope r t

theorem Gone.more {a b : List Item} {p : Handle} (h : Gone a p) : Gone (a ++ b) p := h.elim (fun h => Or.inl (mem_left h)) (fun h => Or.inr (mem_left h))

theorem Denying.more {start rest b : List Item} {pend : List Pend} {t : Thing} {p : Handle} (h : Denying cs start rest pend t p) :
    Denying cs start (rest ++ b) pend t p := by
  obtain ⟨c, w, hw, h⟩ := h
  refine ⟨c, w, hw, ?_⟩
  rcases h with h | ⟨h1, (h | ⟨pre, o, post, e, h⟩) | h⟩
  · exact Or.inl (mem_left h)
  · exact Or.inr ⟨mem_left h1, Or.inl (Or.inl h.more)⟩
  · exact Or.inr ⟨mem_left h1, Or.inl (Or.inr ⟨pre, o, post ++ b, by rw [e, List.append_assoc]; rfl, h⟩)⟩
  · exact Or.inr ⟨mem_left h1, Or.inr h⟩

theorem Sought.more {a b : List Item} {pend : List Pend} {o : Offer} {i : Input} {w : Want} (h : Sought cs a pend o i w) : Sought cs (a ++ b) pend o i w := by
  obtain ⟨start, rest, e, hi, h⟩ := h
  exact ⟨start, rest ++ b, by rw [e, List.append_assoc], hi, fun t ht => (h t ht).imp id (fun h p hp hd => (h p hp hd).more)⟩

theorem Looking.more {rest b : List Item} {scope : Scope} {w : Want} {pend : List Pend} {received : List Offer} {p : Handle} (h : Looking rest scope w pend received p) :
    Looking (rest ++ b) scope w pend received p := by
  obtain ⟨c, h⟩ := h
  refine ⟨c, ?_⟩
  rcases h with h | ⟨h1, (h | ⟨o, ho, h⟩) | h⟩
  · exact Or.inl (mem_left h)
  · exact Or.inr ⟨mem_left h1, Or.inl (Or.inl h.more)⟩
  · exact Or.inr ⟨mem_left h1, Or.inl (Or.inr ⟨o, ho, mem_left h⟩)⟩
  · exact Or.inr ⟨mem_left h1, Or.inr h⟩

theorem LSought.more {a b : List Item} {scope : Scope} {pend : List Pend} {received : List Offer} {r : Req} (h : LSought a scope pend received r) :
    LSought (a ++ b) scope pend received r := by
  obtain ⟨start, rest, e, hi, h⟩ := h
  exact ⟨start, rest ++ b, by rw [e, List.append_assoc], hi, fun p hp hd => (h p hp hd).more⟩

theorem LookedUp.more {rest b : List Item} {scope : Scope} {w : Want} {t : Thing} {p : Handle} (h : LookedUp rest scope w t p) : LookedUp (rest ++ b) scope w t p := by
  obtain ⟨c, h⟩ := h
  refine ⟨c, ?_⟩
  rcases h with h | ⟨h1, h | ⟨o, ho, h⟩⟩
  · exact Or.inl (mem_left h)
  · exact Or.inr ⟨mem_left h1, Or.inl h.more⟩
  · exact Or.inr ⟨mem_left h1, Or.inr ⟨o, mem_left ho, h⟩⟩

theorem NotHere.more {a b : List Item} {scope : Scope} {r : Req} {t : Thing} (h : NotHere a scope r t) : NotHere (a ++ b) scope r t := by
  obtain ⟨start, rest, e, hi, h⟩ := h
  exact ⟨start, rest ++ b, by rw [e, List.append_assoc], hi, fun p hp hd => (h p hp hd).more⟩

theorem LDone.more {a b : List Item} {scope : Scope} {o : Offer} {r : Req} (h : LDone a scope o r) : LDone (a ++ b) scope o r :=
  ⟨mem_left h.1, fun t ht => (h.2 t ht).more⟩

theorem LDone.add {log : List Item} {scope : Scope} {o o' : Offer} {r : Req} (h : LDone log scope o r) (hs : ∀ t, o.has t → o'.has t) : LDone log scope o' r :=
  ⟨h.1, fun t ht => h.2 t (fun h => ht (hs t h))⟩

/-- A lookup that nobody waits for is over. -/
theorem LSought.done {log : List Item} {scope : Scope} {pend : List Pend} {received : List Offer} {r : Req} (h : LSought log scope pend received r)
    (hp : ∀ x ∈ pend, x.state ≠ .pending) : LDone log scope (received.foldl Offer.add {}) r := by
  obtain ⟨start, rest, e, hi, h⟩ := h
  refine ⟨by rw [e]; exact mem_left hi, fun t ht => ⟨start, rest, e, hi, fun p hpr hl => ?_⟩⟩
  obtain ⟨c, h⟩ := h p hpr hl
  refine ⟨c, ?_⟩
  rcases h with h | ⟨h1, (h | ⟨o, ho, h⟩) | ⟨x, hx, _, _, h⟩⟩
  · exact Or.inl h
  · exact Or.inr ⟨h1, Or.inl h⟩
  · exact Or.inr ⟨h1, Or.inr ⟨o, h, fun hh => ht ((has_foldl received {}).mpr (Or.inr ⟨o, ho, hh⟩))⟩⟩
  · exact absurd h (hp x hx)

/-- A discovery that nobody waits for is over. -/
theorem Sought.nowhere {log : List Item} {pend : List Pend} {content : Offer} {i : Input} {w : Want} (h : Sought cs log pend content i w)
    (hp : ∀ x ∈ pend, x.state = .failed) {t : Thing} (ht : w.wants t) (hn : ¬ content.has t) : Nowhere cs log i t := by
  obtain ⟨start, rest, e, hi, h⟩ := h
  refine ⟨start, rest, e, hi, fun p hpr hd => ?_⟩
  obtain ⟨c, w, hw, h⟩ := (h t ht).elim (fun h => absurd h hn) (fun h => h p hpr hd)
  refine ⟨c, w, hw, ?_⟩
  rcases h with h | ⟨h1, h | ⟨x, hx, _, _, h⟩⟩
  · exact Or.inl h
  · exact Or.inr ⟨h1, h⟩
  · exact absurd (hp x hx) h

theorem Sought.mem {log : List Item} {pend : List Pend} {content : Offer} {i : Input} {w : Want} (h : Sought cs log pend content i w) : Item.inp i ∈ log := by
  obtain ⟨start, rest, e, hi, h⟩ := h
  rw [e]
  exact mem_left hi

/-! ### The callbacks -/

def LookOk (log : List Item) (pend : List Pend) (received : List Offer) : LookupCb → Prop
  | .internal r => LSought log .internal pend received r
  | .extended r => LSought log .extended pend received r

def DiscOk (cs : List SvcCfg) (log : List Item) (pend : List Pend) : DiscCb → Prop
  | .aggregated content ds as _ =>
    (∀ r ∈ ds, LDone log .extended content r ∧ Sought cs log pend content (.request true r) r.content) ∧
    (∀ r ∈ as, Sought cs log pend content (.api r) r.content)
  | .rediscovery .. => True

theorem LookOk.more {a b : List Item} {pend : List Pend} {received : List Offer} {cb : LookupCb} (h : LookOk a pend received cb) : LookOk (a ++ b) pend received cb := by
  cases cb <;> exact LSought.more h

theorem DiscOk.more {a b : List Item} {pend : List Pend} {cb : DiscCb} (h : DiscOk cs a pend cb) : DiscOk cs (a ++ b) pend cb := by
  cases cb with
  | aggregated o ds as key => exact ⟨fun r hr => ⟨(h.1 r hr).1.more, (h.1 r hr).2.more⟩, fun r hr => (h.2 r hr).more⟩
  | rediscovery o c p => trivial

/-- A reply has come: what a discovery knows now. -/
def DiscCb.replied (o : Offer) : DiscCb → DiscCb
  | .aggregated content ds as key => .aggregated (content.add o) ds as key
  | .rediscovery content corr process => .rediscovery content corr process

theorem mem_or_erased {c : Corr} {x : Pend} : ∀ {q : List Pend}, x ∈ q → x ∈ eraseFirst (·.corr == c) q ∨ x.corr = c
  | [], h => by cases h
  | y :: ys, h => by
    unfold eraseFirst
    split
    · rename_i hc
      rcases List.mem_cons.mp h with e | h
      · exact Or.inr (by rw [e]; simpa using hc)
      · exact Or.inl h
    · rcases List.mem_cons.mp h with e | h
      · exact Or.inl (by rw [e]; exact List.mem_cons_self ..)
      · exact (mem_or_erased h).imp (List.mem_cons_of_mem _) id

theorem mem_or_received {c : Corr} {x : Pend} : ∀ {q : List Pend}, x ∈ q → x ∈ receivePend c q ∨ x.corr = c
  | [], h => by cases h
  | y :: ys, h => by
    unfold receivePend
    split
    · rename_i hc
      rcases List.mem_cons.mp h with e | h
      · exact Or.inr (by rw [e]; simpa using hc)
      · exact Or.inl (List.mem_cons_of_mem _ h)
    · rcases List.mem_cons.mp h with e | h
      · exact Or.inl (by rw [e]; exact List.mem_cons_self ..)
      · exact (mem_or_received h).imp (List.mem_cons_of_mem _) id

theorem mem_or_failed {p : Handle → Bool} {x : Pend} {q : List Pend} (h : x ∈ q) : x ∈ failPend p q ∨ p x.process = true := by
  by_cases hp : p x.process = true
  · exact Or.inr hp
  · refine Or.inl (List.mem_map.mpr ⟨x, h, ?_⟩)
    rw [if_neg hp]

theorem Sought.replied {log : List Item} {s : State} (ht : Tables (currentCfg cs log) s) {pend : List Pend} {content : Offer} {i : Input} {w : Want} (c : Corr) (o : Offer)
    (h : Sought cs log pend content i w) :
    Sought cs (log ++ [.inp (.reply c o)]) (eraseFirst (·.corr == c) pend) (content.add (s.normalizeReply o)) i w := by
  obtain ⟨start, rest, e, hi, h⟩ := h
  refine ⟨start, rest ++ [.inp (.reply c o)], by rw [e, List.append_assoc], hi, fun t hw => ?_⟩
  by_cases hg : o.gives (currentCfg cs log) t
  · exact Or.inl (has_add.mpr (Or.inr (gives_has ht hg)))
  · rcases h t hw with h | h
    · exact Or.inl (has_add.mpr (Or.inl h))
    · refine Or.inr (fun p hp hd => ?_)
      obtain ⟨c', w', hw', h⟩ := h p hp hd
      rcases h with h | ⟨h1, h | ⟨x, hx, e1, e2, e3⟩⟩
      · exact ⟨c', w', hw', Or.inl (mem_left h)⟩
      · exact Denying.more ⟨c', w', hw', Or.inr ⟨h1, Or.inl h⟩⟩
      · rcases mem_or_erased (c := c) hx with hx | hx
        · exact Denying.more ⟨c', w', hw', Or.inr ⟨h1, Or.inr ⟨x, hx, e1, e2, e3⟩⟩⟩
        · refine ⟨c', w', hw', Or.inr ⟨mem_left h1, Or.inl (Or.inr ⟨rest, o, [], ?_, ?_⟩)⟩⟩
          · rw [← e1, hx]
          · rw [← e]; exact hg

theorem DiscOk.replied {log : List Item} {s : State} (ht : Tables (currentCfg cs log) s) {pend : List Pend} {cb : DiscCb} (c : Corr) (o : Offer)
    (h : DiscOk cs log pend cb) : DiscOk cs (log ++ [.inp (.reply c o)]) (eraseFirst (·.corr == c) pend) (cb.replied (s.normalizeReply o)) := by
  cases cb with
  | aggregated content ds as key =>
    refine ⟨fun r hr => ⟨LDone.add (h.1 r hr).1.more (fun t ht => has_add.mpr (Or.inl ht)), (h.1 r hr).2.replied ht c o⟩, fun r hr => (h.2 r hr).replied ht c o⟩
  | rediscovery content corr process => trivial

theorem LSought.replied {log : List Item} {scope : Scope} {pend : List Pend} {received : List Offer} {r : Req} (c : Corr) (o : Offer) (h : LSought log scope pend received r) :
    LSought (log ++ [.inp (.lookupReply c o)]) scope (receivePend c pend) (received ++ [o]) r := by
  obtain ⟨start, rest, e, hi, h⟩ := h
  refine ⟨start, rest ++ [.inp (.lookupReply c o)], by rw [e, List.append_assoc], hi, fun p hp hl => ?_⟩
  obtain ⟨c', h⟩ := h p hp hl
  rcases h with h | ⟨h1, (h | ⟨o', ho, h⟩) | ⟨x, hx, e1, e2, e3⟩⟩
  · exact ⟨c', Or.inl (mem_left h)⟩
  · exact ⟨c', Or.inr ⟨mem_left h1, Or.inl (Or.inl h.more)⟩⟩
  · exact ⟨c', Or.inr ⟨mem_left h1, Or.inl (Or.inr ⟨o', mem_left ho, mem_left h⟩)⟩⟩
  · rcases mem_or_received (c := c) hx with hx | hx
    · exact ⟨c', Or.inr ⟨mem_left h1, Or.inr ⟨x, hx, e1, e2, e3⟩⟩⟩
    · refine ⟨c', Or.inr ⟨mem_left h1, Or.inl (Or.inr ⟨o, List.mem_append.mpr (Or.inr (List.mem_singleton.mpr rfl)), ?_⟩)⟩⟩
      rw [← e1, hx]
      exact List.mem_append.mpr (Or.inr (List.mem_singleton.mpr rfl))

theorem LookOk.replied {log : List Item} {pend : List Pend} {received : List Offer} {cb : LookupCb} (c : Corr) (o : Offer) (h : LookOk log pend received cb) :
    LookOk (log ++ [.inp (.lookupReply c o)]) (receivePend c pend) (received ++ [o]) cb := by
  cases cb <;> exact LSought.replied c o h

/-- Those that `p` says are gone with the input. -/
def Goes (i : Input) (p : Handle → Bool) : Prop := ∀ x rest, p x = true → Gone (rest ++ [.inp i]) x

theorem Sought.failed {log : List Item} {pend : List Pend} {content : Offer} {i : Input} {w : Want} {j : Input} {p : Handle → Bool} (hj : Goes j p)
    (h : Sought cs log pend content i w) : Sought cs (log ++ [.inp j]) (failPend p pend) content i w := by
  obtain ⟨start, rest, e, hi, h⟩ := h
  refine ⟨start, rest ++ [.inp j], by rw [e, List.append_assoc], hi, fun t hw => (h t hw).imp id (fun h q hq hd => ?_)⟩
  obtain ⟨c', w', hw', h⟩ := h q hq hd
  rcases h with h | ⟨h1, h | ⟨x, hx, e1, e2, e3⟩⟩
  · exact ⟨c', w', hw', Or.inl (mem_left h)⟩
  · exact Denying.more ⟨c', w', hw', Or.inr ⟨h1, Or.inl h⟩⟩
  · rcases mem_or_failed (p := p) hx with hx | hx
    · exact Denying.more ⟨c', w', hw', Or.inr ⟨h1, Or.inr ⟨x, hx, e1, e2, e3⟩⟩⟩
    · exact ⟨c', w', hw', Or.inr ⟨mem_left h1, Or.inl (Or.inl (by rw [← e2]; exact hj _ _ hx))⟩⟩

theorem DiscOk.failed {log : List Item} {pend : List Pend} {cb : DiscCb} {j : Input} {p : Handle → Bool} (hj : Goes j p) (h : DiscOk cs log pend cb) :
    DiscOk cs (log ++ [.inp j]) (failPend p pend) cb := by
  cases cb with
  | aggregated content ds as key => exact ⟨fun r hr => ⟨(h.1 r hr).1.more, (h.1 r hr).2.failed hj⟩, fun r hr => (h.2 r hr).failed hj⟩
  | rediscovery content corr process => trivial

theorem LookOk.failed {log : List Item} {pend : List Pend} {received : List Offer} {cb : LookupCb} {j : Input} {p : Handle → Bool} (hj : Goes j p)
    (h : LookOk log pend received cb) : LookOk (log ++ [.inp j]) (failPend p pend) received cb := by
  have : ∀ scope r, LSought log scope pend received r → LSought (log ++ [.inp j]) scope (failPend p pend) received r := by
    rintro scope r ⟨start, rest, e, hi, h⟩
    refine ⟨start, rest ++ [.inp j], by rw [e, List.append_assoc], hi, fun q hq hl => ?_⟩
    obtain ⟨c', h⟩ := h q hq hl
    rcases h with h | ⟨h1, h | ⟨x, hx, e1, e2, e3⟩⟩
    · exact ⟨c', Or.inl (mem_left h)⟩
    · exact Looking.more ⟨c', Or.inr ⟨h1, Or.inl h⟩⟩
    · rcases mem_or_failed (p := p) hx with hx | hx
      · exact ⟨c', Or.inr ⟨mem_left h1, Or.inr ⟨x, hx, e1, e2, e3⟩⟩⟩
      · exact ⟨c', Or.inr ⟨mem_left h1, Or.inl (Or.inl (by rw [← e2]; exact hj _ _ hx))⟩⟩
  cases cb <;> exact this _ _ h

/-! ### The invariant -/

/-- `fl` and `fd` are what is still to be done to those that are waited for. -/
structure Full (cs : List SvcCfg) (fl fd : List Pend → List Pend) (s : State) : Prop where
  reg : s.providers = registered s.log
  tab : Tables (currentCfg cs s.log) s
  look : ∀ e ∈ s.lookup, LookOk s.log (fl e.pend) e.received e.callback
  disc : ∀ e ∈ s.discovery, DiscOk cs s.log (fd e.pend) e.callback
  acc : ∀ r ∈ s.accumulate.discovery, LDone s.log .extended s.accumulate.lookup r
  api : ∀ r ∈ s.accumulate.api, Item.inp (.api r) ∈ s.log
  stop : s.shutdown = true → Item.inp .shutdown ∈ s.log
  right : AllThorough cs s.log

variable {fl fd : List Pend → List Pend}

theorem AllThorough.snoc {log : List Item} {y : Item} (h : AllThorough cs log) (hy : ∀ o, y = .out o ∨ y = .lost o → Thorough cs log o) :
    AllThorough cs (log ++ [y]) := by
  intro before o after he
  have key : ∀ z, log ++ [y] = before ++ z :: after → (∃ a, log = before ++ z :: a) ∨ (before = log ∧ z = y) := by
    intro z e
    rcases List.eq_nil_or_concat after with ha | ⟨a, x, ha⟩
    · right
      rw [ha] at e
      have := List.append_inj' e rfl
      exact ⟨this.1.symm, by injection this.2 with h; exact h.symm⟩
    · left
      refine ⟨a, ?_⟩
      rw [ha, List.concat_eq_append, ← List.cons_append, ← List.append_assoc] at e
      exact (List.append_inj' e rfl).1
  rcases he with he | he
  · rcases key _ he with ⟨a, e⟩ | ⟨e1, e2⟩
    · exact h before o a (Or.inl e)
    · rw [e1]; exact hy o (Or.inl e2.symm)
  · rcases key _ he with ⟨a, e⟩ | ⟨e1, e2⟩
    · exact h before o a (Or.inr e)
    · rw [e1]; exact hy o (Or.inr e2.symm)

theorem currentCfg_snoc (log : List Item) (y : Item) : currentCfg cs (log ++ [y]) = currentStep (currentCfg cs log) y := by
  unfold currentCfg
  rw [List.foldl_append]
  rfl

theorem currentCfg_sent (log : List Item) (y : Item) (h : y.isInp = false) : currentCfg cs (log ++ [y]) = currentCfg cs log := by
  rw [currentCfg_snoc]
  cases y <;> first | rfl | cases h

theorem Full.grow {s : State} (h : Full cs fl fd s) (y : Item) (ps : List Provider) (hr : ps = registered (s.log ++ [y])) (hc : currentCfg cs (s.log ++ [y]) = currentCfg cs s.log)
    (hy : ∀ o, y = .out o ∨ y = .lost o → Thorough cs s.log o) : Full cs fl fd { s with log := s.log ++ [y], providers := ps } where
  reg := hr
  tab := by
    show Tables (currentCfg cs (s.log ++ [y])) _
    rw [hc]
    exact h.tab.same rfl rfl
  look := fun e he => (h.look e he).more
  disc := fun e he => (h.disc e he).more
  acc := fun r hr => (h.acc r hr).more
  api := fun r hr => mem_left (h.api r hr)
  stop := fun hs => mem_left (h.stop hs)
  right := h.right.snoc hy

theorem Full.send {s : State} (h : Full cs fl fd s) (env : Env) (d : Ipc) (o : Out) (ho : Thorough cs s.log o) (hn : o.isReg = false := by rfl) :
    Full cs fl fd (s.send env d o) := by
  unfold State.send
  refine h.grow _ s.providers (h.reg.trans (registered_sent _ _ hn _).symm) (currentCfg_sent _ _ (by split <;> rfl)) ?_
  · intro o' e
    split at e
    · rcases e with e | e
      · injection e with e; rw [← e]; exact ho
      · cases e
    · rcases e with e | e
      · cases e
      · injection e with e; rw [← e]; exact ho

theorem Full.foldl {α : Type} (P : α → List Item → Prop) (hP : ∀ x a b, P x a → P x (a ++ b)) (f : State → α → State)
    (hg : ∀ s x, Grow s (f s x)) (hf : ∀ s x, Full cs fl fd s → P x s.log → Full cs fl fd (f s x)) :
    ∀ (l : List α) (s : State), Full cs fl fd s → (∀ x ∈ l, P x s.log) → Full cs fl fd (l.foldl f s)
  | [], _, h, _ => h
  | x :: xs, s, h, hl => by
    refine Full.foldl P hP f hg hf xs _ (hf s x h (hl x (List.mem_cons_self ..))) ?_
    intro y hy
    obtain ⟨ys, e, _⟩ := hg s x
    rw [e]
    exact hP y _ _ (hl y (List.mem_cons_of_mem _ hy))

theorem Full.setDisc {s : State} {fd' : List Pend → List Pend} (h : Full cs fl fd s) (l : List DiscEntry) (hl : ∀ e ∈ l, DiscOk cs s.log (fd' e.pend) e.callback) :
    Full cs fl fd' { s with discovery := l } :=
  ⟨h.reg, h.tab.same rfl rfl, h.look, hl, h.acc, h.api, h.stop, h.right⟩

theorem Full.setLookup {s : State} {fl' : List Pend → List Pend} (h : Full cs fl fd s) (l : List (FanEntry Offer LookupCb))
    (hl : ∀ e ∈ l, LookOk s.log (fl' e.pend) e.received e.callback) : Full cs fl' fd { s with lookup := l } :=
  ⟨h.reg, h.tab.same rfl rfl, hl, h.disc, h.acc, h.api, h.stop, h.right⟩

/-- The rest of the state does not matter. -/
theorem Full.other {s : State} (h : Full cs fl fd s) (known : List (FanEntry Want KnownCb)) (pending : List (Nat × Want)) (key : Nat) (n : Corr) :
    Full cs fl fd { s with known := known, pending := pending, nextKey := key, nextCorr := n } :=
  ⟨h.reg, h.tab.same rfl rfl, h.look, h.disc, h.acc, h.api, h.stop, h.right⟩

/-! ### Answers -/

/-- What is known of a request of this domain, before its answer. -/
def ApiOk (cs : List SvcCfg) (log : List Item) (o : Offer) (r : Req) : Prop :=
  Item.inp (.api r) ∈ log ∧ ∀ t, r.content.wants t → ¬ o.has t → Nowhere cs log (.api r) t

def ReqOk (cs : List SvcCfg) (log : List Item) (o : Offer) (r : Req) : Prop :=
  Item.inp (.request true r) ∈ log ∧ ∀ t, r.content.wants t → ¬ o.has t → NotHere log .extended r t ∧ Nowhere cs log (.request true r) t

theorem Denied.more {start rest b : List Item} {t : Thing} {p : Handle} (h : Denied cs start rest t p) : Denied cs start (rest ++ b) t p := by
  obtain ⟨c, w, hw, h⟩ := h
  refine ⟨c, w, hw, ?_⟩
  rcases h with h | ⟨h1, h | ⟨pre, o, post, e, h⟩⟩
  · exact Or.inl (mem_left h)
  · exact Or.inr ⟨mem_left h1, Or.inl h.more⟩
  · exact Or.inr ⟨mem_left h1, Or.inr ⟨pre, o, post ++ b, by rw [e, List.append_assoc]; rfl, h⟩⟩

theorem Nowhere.more {a b : List Item} {i : Input} {t : Thing} (h : Nowhere cs a i t) : Nowhere cs (a ++ b) i t := by
  obtain ⟨start, rest, e, hi, h⟩ := h
  exact ⟨start, rest ++ b, by rw [e, List.append_assoc], hi, fun p hp hd => (h p hp hd).more⟩

theorem ApiOk.more {a b : List Item} {o : Offer} {r : Req} (h : ApiOk cs a o r) : ApiOk cs (a ++ b) o r :=
  ⟨mem_left h.1, fun t ht hn => (h.2 t ht hn).more⟩

theorem ReqOk.more {a b : List Item} {o : Offer} {r : Req} (h : ReqOk cs a o r) : ReqOk cs (a ++ b) o r :=
  ⟨mem_left h.1, fun t ht hn => ⟨(h.2 t ht hn).1.more, (h.2 t ht hn).2.more⟩⟩

theorem Full.sendReply {s : State} (h : Full cs fl fd s) (env : Env) (o : Offer) (r : Req) (hr : ReqOk cs s.log o r) : Full cs fl fd (s.sendReply env o r) :=
  h.send env _ _ (Or.inl ⟨r, hr.1, rfl, rfl, fun t ht hn => Or.inr (hr.2 t ht (fun hh => hn (has_answer ht hh)))⟩)

theorem Full.sendApiReply {s : State} (h : Full cs fl fd s) (env : Env) (o : Offer) (r : Req) (hr : ApiOk cs s.log o r) : Full cs fl fd (s.sendApiReply env o r) :=
  h.send env _ _ ⟨r, hr.1, rfl, rfl, fun t ht hn => Or.inr (hr.2 t ht (fun hh => hn (has_answer ht hh)))⟩

theorem Full.sendReplies {s : State} (h : Full cs fl fd s) (env : Env) (o : Offer) (rs : List Req) (hr : ∀ r ∈ rs, ReqOk cs s.log o r) :
    Full cs fl fd (rs.foldl (fun s r => s.sendReply env o r) s) :=
  Full.foldl (fun r log => ReqOk cs log o r) (fun x a b h => h.more) _ (fun s r => Grow.send s env _ _) (fun s r h hp => h.sendReply env o r hp) rs s h hr

theorem Full.sendApiReplies {s : State} (h : Full cs fl fd s) (env : Env) (o : Offer) (rs : List Req) (hr : ∀ r ∈ rs, ApiOk cs s.log o r) :
    Full cs fl fd (rs.foldl (fun s r => s.sendApiReply env o r) s) :=
  Full.foldl (fun r log => ApiOk cs log o r) (fun x a b h => h.more) _ (fun s r => Grow.send s env _ _) (fun s r h hp => h.sendApiReply env o r hp) rs s h hr

/-- The callback is over: nobody is waited for. -/
theorem Full.discDone {s : State} (h : Full cs fl fd s) (env : Env) (pend : List Pend) (cb : DiscCb) (hc : DiscOk cs s.log pend cb) (hp : allFailed pend = true) :
    Full cs fl fd (s.discDone env cb) := by
  have hp : ∀ x ∈ pend, x.state = .failed := fun x hx => eq_of_beq (List.all_eq_true.mp hp x hx)
  cases cb with
  | aggregated o ds as key =>
    have ha : ∀ r ∈ as, ApiOk cs s.log o r := fun r hr => ⟨(hc.2 r hr).mem, fun t ht hn => (hc.2 r hr).nowhere hp ht hn⟩
    have hd : ∀ r ∈ ds, ReqOk cs s.log o r := fun r hr => ⟨(hc.1 r hr).2.mem, fun t ht hn => ⟨(hc.1 r hr).1.2 t hn, (hc.1 r hr).2.nowhere hp ht hn⟩⟩
    have g : Grow s (as.foldl (fun s r => s.sendApiReply env o r) s) := Grow.foldl _ (fun s r => Grow.send s env _ _) as s
    refine (h.sendApiReplies env o as ha).sendReplies env o ds ?_
    exact fun r hr => g.pres (P := fun l => ReqOk cs l o r) (fun _ _ h => h.more) (hd r hr)
  | rediscovery o c p => exact h.send env _ _ trivial

theorem Full.discRelease {s : State} (h : Full cs fl fd s) (cb : DiscCb) : Full cs fl fd (s.discRelease cb) := by
  cases cb with
  | aggregated o ds as key => exact h.other s.known _ s.nextKey s.nextCorr
  | rediscovery o c p => exact h

theorem Full.discAdd {s : State} (h : Full cs fl id s) (env : Env) (e : DiscEntry) (he : DiscOk cs s.log e.pend e.callback) : Full cs fl id (s.discAdd env e) := by
  unfold State.discAdd
  split
  · rename_i ha
    exact (h.discDone env _ _ he ha).discRelease _
  · refine h.setDisc _ ?_
    intro x hx
    rcases List.mem_append.mp hx with hx | hx
    · exact h.disc x hx
    · rw [List.mem_singleton.mp hx]; exact he

/-! ### Requests -/

theorem Full.requests {s : State} (h : Full cs fl fd s) (env : Env) (ps : List Provider) (mk : Handle → Corr → Out)
    (ht : ∀ log h c, Thorough cs log (mk h c)) (hn : ∀ h c, (mk h c).isReg = false := by intro h c; rfl) :
    Full cs fl fd (s.requests env ps mk).1 := by
  unfold State.requests
  suffices ∀ (r : State × List Pend), Full cs fl fd r.1 →
      Full cs fl fd (ps.foldl (fun r p =>
    ({ r.1.send env p.process.ipc (mk p.process r.1.nextCorr) with nextCorr := r.1.nextCorr + 1 },
      if env.reach p.process.ipc then r.2 ++ [{ corr := r.1.nextCorr, process := p.process }] else r.2)) r).1 from this (s, []) h
  induction ps with
  | nil => exact fun r h => h
  | cons p ps ih =>
    intro r hr
    refine ih _ ?_
    exact (hr.send env p.process.ipc (mk p.process r.1.nextCorr) (ht _ _ _) (hn _ _)).other _ _ _ _

/-- Each was asked: it could not be reached, or an answer is waited for. -/
theorem requests_asked (env : Env) (mk : Handle → Corr → Out) (s : State) (ps : List Provider) :
    ∃ rest, (s.requests env ps mk).1.log = s.log ++ rest ∧
      ∀ p ∈ ps, ∃ c, Item.lost (mk p.process c) ∈ rest ∨
        (Item.out (mk p.process c) ∈ rest ∧ ∃ x ∈ (s.requests env ps mk).2, x.corr = c ∧ x.process = p.process ∧ x.state = .pending) := by
  unfold State.requests
  suffices ∀ (ps : List Provider) (r : State × List Pend), ∃ rest more, (ps.foldl (fun r p =>
    ({ r.1.send env p.process.ipc (mk p.process r.1.nextCorr) with nextCorr := r.1.nextCorr + 1 },
      if env.reach p.process.ipc then r.2 ++ [{ corr := r.1.nextCorr, process := p.process }] else r.2)) r).1.log = r.1.log ++ rest ∧
      (ps.foldl (fun r p =>
    ({ r.1.send env p.process.ipc (mk p.process r.1.nextCorr) with nextCorr := r.1.nextCorr + 1 },
      if env.reach p.process.ipc then r.2 ++ [{ corr := r.1.nextCorr, process := p.process }] else r.2)) r).2 = r.2 ++ more ∧
      ∀ p ∈ ps, ∃ c, Item.lost (mk p.process c) ∈ rest ∨
        (Item.out (mk p.process c) ∈ rest ∧ ∃ x ∈ more, x.corr = c ∧ x.process = p.process ∧ x.state = .pending) by
    obtain ⟨rest, more, e1, e2, h⟩ := this ps (s, [])
    refine ⟨rest, e1, ?_⟩
    rw [e2]
    exact h
  intro ps
  induction ps with
  | nil => exact fun r => ⟨[], [], by simp, by simp, fun p hp => (by cases hp)⟩
  | cons p ps ih =>
    intro r
    rw [List.foldl_cons]
    generalize hr : ((({ r.1.send env p.process.ipc (mk p.process r.1.nextCorr) with nextCorr := r.1.nextCorr + 1 } : State),
      if env.reach p.process.ipc then r.2 ++ [({ corr := r.1.nextCorr, process := p.process } : Pend)] else r.2) : State × List Pend) = r'
    obtain ⟨rest, more, e1, e2, h⟩ := ih r'
    rw [e1, e2]
    by_cases hreach : env.reach p.process.ipc = true
    · have l1 : r'.1.log = r.1.log ++ [.out (mk p.process r.1.nextCorr)] := by
        rw [← hr]; show r.1.log ++ [if _ then _ else _] = _; rw [if_pos hreach]
      have l2 : r'.2 = r.2 ++ [{ corr := r.1.nextCorr, process := p.process }] := by rw [← hr]; exact if_pos hreach
      refine ⟨.out (mk p.process r.1.nextCorr) :: rest, { corr := r.1.nextCorr, process := p.process } :: more, by rw [l1, List.append_assoc]; rfl, by rw [l2, List.append_assoc]; rfl, ?_⟩
      intro q hq
      rcases List.mem_cons.mp hq with e | hq
      · rw [e]
        exact ⟨r.1.nextCorr, Or.inr ⟨List.mem_cons_self .., _, List.mem_cons_self .., rfl, rfl, rfl⟩⟩
      · obtain ⟨c, h | ⟨h1, x, hx, h2⟩⟩ := h q hq
        · exact ⟨c, Or.inl (List.mem_cons_of_mem _ h)⟩
        · exact ⟨c, Or.inr ⟨List.mem_cons_of_mem _ h1, x, List.mem_cons_of_mem _ hx, h2⟩⟩
    · have l1 : r'.1.log = r.1.log ++ [.lost (mk p.process r.1.nextCorr)] := by
        rw [← hr]; show r.1.log ++ [if _ then _ else _] = _; rw [if_neg hreach]
      have l2 : r'.2 = r.2 := by rw [← hr]; exact if_neg hreach
      refine ⟨.lost (mk p.process r.1.nextCorr) :: rest, more, by rw [l1, List.append_assoc]; rfl, by rw [l2], ?_⟩
      intro q hq
      rcases List.mem_cons.mp hq with e | hq
      · rw [e]
        exact ⟨r.1.nextCorr, Or.inl (List.mem_cons_self ..)⟩
      · obtain ⟨c, h | ⟨h1, h2⟩⟩ := h q hq
        · exact ⟨c, Or.inl (List.mem_cons_of_mem _ h)⟩
        · exact ⟨c, Or.inr ⟨List.mem_cons_of_mem _ h1, h2⟩⟩

theorem Full.aggregated {s : State} (h : Full cs fl id s) (env : Env) (ds as : List Req) (o : Offer)
    (hd : ∀ r ∈ ds, LDone s.log .extended o r) (ha : ∀ r ∈ as, Item.inp (.api r) ∈ s.log) : Full cs fl id (s.aggregated env ds as o) := by
  unfold State.aggregated
  split
  · exact h
  · dsimp only
    generalize hw : s.normalize (((ds ++ as).foldl (fun w r => w.add r.content) ({} : Want)).diff o) = w
    have want : ∀ r ∈ ds ++ as, ∀ t, r.content.wants t → ¬ o.has t → w.wants (t.outside (currentCfg cs s.log)) := by
      intro r hr t ht hn
      rw [← hw]
      exact wants_normalize h.tab (wants_diff ((wants_foldl (fun r : Req => r.content) (ds ++ as) {}).mpr (Or.inr ⟨r, hr, ht⟩)) hn)
    have key : ∃ rest, (if w.any = true then s.requests env (s.providers.filter (·.abilities.discover)) (fun h c => .request h c w) else (s, [])).1.log = s.log ++ rest ∧
        ∀ r ∈ ds ++ as, ∀ t, r.content.wants t → o.has t ∨ ∀ p ∈ registered s.log, p.abilities.discover = true →
          Denying cs s.log rest (if w.any = true then s.requests env (s.providers.filter (·.abilities.discover)) (fun h c => .request h c w) else (s, [])).2 t p.process := by
      by_cases hany : w.any = true
      · rw [if_pos hany]
        obtain ⟨rest, e, hasked⟩ := requests_asked env (fun h c => .request h c w) s (s.providers.filter (·.abilities.discover))
        refine ⟨rest, e, fun r hr t ht => ?_⟩
        by_cases ho : o.has t
        · exact Or.inl ho
        · refine Or.inr (fun p hp hdisc => ?_)
          obtain ⟨c, hc⟩ := hasked p (List.mem_filter.mpr ⟨by rw [h.reg]; exact hp, hdisc⟩)
          refine ⟨c, w, want r hr t ht ho, ?_⟩
          rcases hc with hc | ⟨h1, x, hx, e1, e2, e3⟩
          · exact Or.inl hc
          · exact Or.inr ⟨h1, Or.inr ⟨x, hx, e1, e2, by rw [e3]; exact fun h => (by cases h)⟩⟩
      · rw [if_neg hany]
        refine ⟨[], by simp, fun r hr t ht => Or.inl ?_⟩
        exact Classical.byContradiction (fun ho => hany (wants_any (want r hr t ht ho)))
    have hfull : Full cs fl id (if w.any = true then s.requests env (s.providers.filter (·.abilities.discover)) (fun h c => .request h c w) else (s, [])).1 := by
      split
      · exact h.requests env _ _ (fun _ _ _ => trivial)
      · exact h
    generalize (if w.any = true then s.requests env (s.providers.filter (·.abilities.discover)) (fun h c => .request h c w) else (s, [])) = q at key hfull
    obtain ⟨rest, e, key⟩ := key
    refine Full.discAdd (hfull.other q.1.known _ _ q.1.nextCorr) env _ ⟨fun r hr => ⟨?_, ?_⟩, fun r hr => ?_⟩
    · show LDone q.1.log _ _ _
      rw [e]; exact (hd r hr).more
    · exact ⟨s.log, rest, e, (hd r hr).1, key r (mem_left hr)⟩
    · exact ⟨s.log, rest, e, ha r hr, key r (List.mem_append.mpr (Or.inr hr))⟩

/-! ### A reply -/

theorem Full.discMessage {s : State} (h : Full cs fl fd s) (env : Env) (o : Offer) (pend : List Pend) (cb : DiscCb)
    (hc : DiscOk cs s.log pend (cb.replied (s.normalizeReply o))) :
    Full cs fl fd (s.discMessage env o cb).1 ∧ DiscOk cs (s.discMessage env o cb).1.log pend (s.discMessage env o cb).2.1 := by
  cases cb with
  | aggregated content ds as key =>
    unfold State.discMessage
    dsimp only
    dsimp only [DiscCb.replied] at hc
    generalize content.add (s.normalizeReply o) = content' at hc
    unfold State.sendIncluded
    dsimp only
    have ha : ∀ r ∈ as.filter (fun r => r.content.includedIn content'), ApiOk cs s.log content' r := by
      intro r hr
      obtain ⟨h1, h2⟩ := List.mem_filter.mp hr
      exact ⟨(hc.2 r h1).mem, fun t ht hn => absurd (included_iff.mp h2 t ht) hn⟩
    have h1 := h.sendApiReplies env content' _ ha
    have g1 : Grow s ((as.filter fun r => r.content.includedIn content').foldl (fun s r => s.sendApiReply env content' r) s) :=
      Grow.foldl _ (fun s r => Grow.send s env _ _) _ s
    generalize (as.filter fun r => r.content.includedIn content').foldl (fun s r => s.sendApiReply env content' r) s = t at h1 g1
    have h2 := h1.sendReplies env content' (ds.filter fun r => r.content.includedIn content') (by
      intro r hr
      obtain ⟨h1, h2⟩ := List.mem_filter.mp hr
      exact ⟨g1.mem (hc.1 r h1).2.mem, fun t ht hn => absurd (included_iff.mp h2 t ht) hn⟩)
    have g2 : Grow t ((ds.filter fun r => r.content.includedIn content').foldl (fun s r => s.sendReply env content' r) t) :=
      Grow.foldl _ (fun s r => Grow.send s env _ _) _ t
    refine ⟨h2, ?_⟩
    have := (g1.trans g2).pres (P := fun l => DiscOk cs l pend (.aggregated content' ds as key)) (fun _ _ h => h.more) hc
    exact ⟨fun r hr => this.1 r (List.mem_filter.mp hr).1, fun r hr => this.2 r (List.mem_filter.mp hr).1⟩
  | rediscovery content c p => exact ⟨h, trivial⟩

theorem Full.discMsgIn {s : State} (h : Full cs fl id s) (env : Env) (c : Corr) (o : Offer)
    (ho : ∀ e ∈ s.discovery, DiscOk cs s.log (eraseFirst (·.corr == c) e.pend) (e.callback.replied (s.normalizeReply o))) : ∀ (es before : List DiscEntry),
    s.discovery = before ++ es → Full cs fl id (s.discMsgIn env c o before es)
  | [], _, _ => h
  | e :: es, before, hd => by
    unfold State.discMsgIn
    split
    · unfold State.discEntryMsg
      dsimp only
      obtain ⟨h1, h2⟩ := h.discMessage env o _ e.callback (ho e (by rw [hd]; simp))
      obtain ⟨log, hf⟩ := discMessage_fields env s o e.callback
      have hd' : (s.discMessage env o e.callback).1.discovery = before ++ e :: es := by rw [hf]; exact hd
      generalize s.discMessage env o e.callback = r at h1 h2 hd'
      have hl : ∀ x ∈ before ++ es, DiscOk cs r.1.log x.pend x.callback := fun x hx => h1.disc x (by
        rw [hd']
        rcases List.mem_append.mp hx with hx | hx
        · exact mem_left hx
        · exact List.mem_append.mpr (Or.inr (List.mem_cons_of_mem _ hx)))
      have h1' : Full cs fl id { r.1 with discovery := before ++ es } := h1.setDisc _ hl
      split
      · exact h1'.discRelease _
      · split
        · rename_i hall
          exact Full.discRelease (Full.discDone h1' env _ _ h2 hall) _
        · refine h1.setDisc _ ?_
          intro x hx
          rcases List.mem_append.mp hx with hx | hx
          · exact hl x (mem_left hx)
          · rcases List.mem_cons.mp hx with hx | hx
            · rw [hx]; exact h2
            · exact hl x (List.mem_append.mpr (Or.inr hx))
    · exact Full.discMsgIn h env c o ho es (before ++ [e]) (by rw [hd, List.append_assoc]; rfl)

theorem Full.discFailed {s : State} {p : Handle → Bool} (h : Full cs fl (failPend p) s) (env : Env) : Full cs fl id (s.discFailed env p) := by
  unfold State.discFailed
  dsimp only
  have hl : ∀ e ∈ s.discovery.map (fun e => ({ e with pend := failPend p e.pend } : DiscEntry)), DiscOk cs s.log e.pend e.callback := by
    intro e he
    obtain ⟨e0, he0, rfl⟩ := List.mem_map.mp he
    exact h.disc e0 he0
  refine Full.foldl (fun (e : DiscEntry) log => DiscOk cs log e.pend e.callback ∧ allFailed e.pend = true) (fun (x : DiscEntry) a b h => ⟨h.1.more, h.2⟩) _
    (fun s e => Grow.done_release s env _) (fun s e h hp => (h.discDone env _ _ hp.1 hp.2).discRelease _) _ _ ?_ ?_
  · exact h.setDisc _ (fun e he => hl e (List.mem_filter.mp he).1)
  · exact fun e he => ⟨hl e (List.mem_filter.mp he).1, (List.mem_filter.mp he).2⟩

/-! ### The lookup -/

theorem noneWaits_all {q : List Pend} (h : noneWaits q = true) : ∀ x ∈ q, x.state ≠ .pending := by
  intro x hx e
  unfold noneWaits at h
  have : q.any (fun p => p.state == .pending) = true := List.any_eq_true.mpr ⟨x, hx, by rw [e]; rfl⟩
  rw [this] at h
  cases h

theorem Full.lookupDone {s : State} (h : Full cs fl id s) (env : Env) (pend : List Pend) (replies : List Offer) (cb : LookupCb) (hc : LookOk s.log pend replies cb)
    (hp : noneWaits pend = true) : Full cs fl id (s.lookupDone env replies cb) := by
  have hp := noneWaits_all hp
  cases cb with
  | internal r =>
    have hd := LSought.done hc hp
    exact h.send env _ _ (Or.inr ⟨r, hd.1, rfl, rfl, fun t ht hn => Or.inr (hd.2 t hn)⟩)
  | extended r =>
    have hd := LSought.done hc hp
    unfold State.lookupDone
    dsimp only
    generalize replies.foldl Offer.add ({} : Offer) = content at hd
    split
    · rename_i hi
      exact h.sendReply env _ r ⟨hd.1, fun t ht hn => absurd (included_iff.mp hi t ht) hn⟩
    · split
      · refine ⟨h.reg, h.tab.same rfl rfl, h.look, h.disc, ?_, h.api, h.stop, h.right⟩
        intro x hx
        rcases List.mem_append.mp hx with hx | hx
        · exact (h.acc x hx).add (fun t ht => has_add.mpr (Or.inl ht))
        · rw [List.mem_singleton.mp hx]; exact hd.add (fun t ht => has_add.mpr (Or.inr ht))
      · exact h.aggregated env _ _ _ (fun x hx => by rw [List.mem_singleton.mp hx]; exact hd) (fun x hx => by cases hx)

theorem Full.lookupAdd {s : State} (h : Full cs id id s) (env : Env) (q : List Pend) (cb : LookupCb) (hc : LookOk s.log q [] cb) : Full cs id id (s.lookupAdd env q cb) := by
  unfold State.lookupAdd
  split
  · rename_i hn
    exact h.lookupDone env q [] cb hc hn
  · refine h.setLookup _ ?_
    intro e he
    rcases List.mem_append.mp he with he | he
    · exact h.look e he
    · rw [List.mem_singleton.mp he]
      exact hc

theorem Full.lookupMsgIn {s : State} (h : Full cs id id s) (env : Env) (c : Corr) (o : Offer)
    (ho : ∀ e ∈ s.lookup, LookOk s.log (receivePend c e.pend) (e.received ++ [o]) e.callback) :
    ∀ (es before : List (FanEntry Offer LookupCb)), s.lookup = before ++ es → Full cs id id (s.lookupMsgIn env c o before es)
  | [], _, _ => h
  | e :: es, before, hd => by
    unfold State.lookupMsgIn
    split
    · have he := ho e (by rw [hd]; simp)
      have hl : ∀ x ∈ before ++ es, x ∈ s.lookup := by
        intro x hx
        rw [hd]
        rcases List.mem_append.mp hx with hx | hx
        · exact mem_left hx
        · exact List.mem_append.mpr (Or.inr (List.mem_cons_of_mem _ hx))
      dsimp only
      split
      · rename_i hn
        exact Full.lookupDone (h.setLookup _ (fun x hx => h.look x (hl x hx))) env _ _ _ he hn
      · refine h.setLookup _ ?_
        intro x hx
        rcases List.mem_append.mp hx with hx | hx
        · exact h.look x (hl x (mem_left hx))
        · rcases List.mem_cons.mp hx with hx | hx
          · rw [hx]; exact he
          · exact h.look x (hl x (List.mem_append.mpr (Or.inr hx)))
    · exact Full.lookupMsgIn h env c o ho es (before ++ [e]) (by rw [hd, List.append_assoc]; rfl)

theorem Full.lookupFailed {s : State} {p : Handle → Bool} (h : Full cs (failPend p) id s) (env : Env) : Full cs id id (s.lookupFailed env p) := by
  unfold State.lookupFailed
  refine Full.foldl (fun (e : FanEntry Offer LookupCb) log => LookOk log (failPend p e.pend) e.received e.callback ∧ noneWaits (failPend p e.pend) = true)
    (fun (x : FanEntry Offer LookupCb) a b h => ⟨h.1.more, h.2⟩) _
    (fun s e => Grow.lookupDone s env _ _) (fun s e h hp => h.lookupDone env _ _ _ hp.1 hp.2) _ _ ?_ ?_
  · refine h.setLookup _ ?_
    intro e he
    obtain ⟨e0, he0, rfl⟩ := List.mem_map.mp he
    exact h.look e0 (List.mem_filter.mp he0).1
  · intro e he
    obtain ⟨h1, h2⟩ := List.mem_filter.mp he
    exact ⟨h.look e h1, (Bool.and_eq_true _ _ ▸ h2 : _ ∧ _).2⟩

theorem Full.localLookup {s : State} (h : Full cs id id s) (env : Env) (scope : Scope) (r : Req) (hr : Item.inp (.request (decide (scope = .extended)) r) ∈ s.log) :
    Full cs id id (s.localLookup env scope r) := by
  unfold State.localLookup
  dsimp only
  obtain ⟨rest, e, hasked⟩ := requests_asked env (fun h c => .lookup h c scope r.content) s (s.providers.filter (·.abilities.lookup))
  refine (h.requests env _ (fun h c => .lookup h c scope r.content) (fun _ _ _ => trivial)).lookupAdd env _ _ ?_
  have : LSought (s.requests env (s.providers.filter (·.abilities.lookup)) (fun h c => .lookup h c scope r.content)).1.log scope
      (s.requests env (s.providers.filter (·.abilities.lookup)) (fun h c => .lookup h c scope r.content)).2 [] r := by
    refine ⟨s.log, rest, e, hr, fun p hp hl => ?_⟩
    obtain ⟨c, hc⟩ := hasked p (List.mem_filter.mpr ⟨by rw [h.reg]; exact hp, hl⟩)
    rcases hc with hc | ⟨h1, h2⟩
    · exact ⟨c, Or.inl hc⟩
    · exact ⟨c, Or.inr ⟨h1, Or.inr h2⟩⟩
  cases scope <;> exact this

/-! ### What is known -/

theorem Full.sends {α : Type} {s : State} (h : Full cs fl fd s) (env : Env) (d : α → Ipc) (o : α → Out) (ho : ∀ log x, Thorough cs log (o x)) (hn : ∀ x, (o x).isReg = false) (l : List α) :
    Full cs fl fd (l.foldl (fun s x => s.send env (d x) (o x)) s) :=
  Full.foldl (fun _ _ => True) (fun _ _ _ _ => trivial) _ (fun s x => Grow.send s env _ _) (fun s x h _ => h.send env _ _ (ho _ x) (hn x)) l s h (fun _ _ => trivial)

theorem Full.knownDone {s : State} (h : Full cs fl id s) (env : Env) (replies : List Want) (cb : KnownCb) : Full cs fl id (s.knownDone env replies cb) := by
  cases cb with
  | rediscovery corr process =>
    unfold State.knownDone
    dsimp only
    generalize (s.normalize (replies.foldl Want.add ({} : Want))).add s.pendingContent = w
    exact (h.requests env _ (fun h c => .request h c w) (fun _ _ _ => trivial)).discAdd env _ trivial
  | topology direct implicit =>
    unfold State.knownDone
    dsimp only
    generalize (s.normalize (direct.foldl (fun w d => w.add d.configured) (replies.foldl Want.add ({} : Want)))).add s.pendingContent = w
    have h1 : Full cs fl id (if w.any = true then (targets direct implicit).foldl (fun s t => s.send env t (.explore t w)) s else s) := by
      split
      · exact Full.sends h env (fun t => t) (fun t => .explore t w) (fun _ _ => trivial) (fun _ => rfl) _
      · exact h
    generalize (if w.any = true then (targets direct implicit).foldl (fun s t => s.send env t (.explore t w)) s else s) = u at h1
    exact Full.sends h1 env (fun p : Provider => p.process.ipc) (fun p => .implicit p.process.ipc _) (fun _ _ => trivial) (fun _ => rfl) _

theorem Full.setKnown {s : State} (h : Full cs fl fd s) (l : List (FanEntry Want KnownCb)) : Full cs fl fd { s with known := l } :=
  h.other l s.pending s.nextKey s.nextCorr

theorem Full.knownAdd {s : State} (h : Full cs fl id s) (env : Env) (q : List Pend) (cb : KnownCb) : Full cs fl id (s.knownAdd env q cb) := by
  unfold State.knownAdd
  split
  · exact h.knownDone env [] cb
  · exact h.setKnown _

theorem Full.knownMsgIn {s : State} (h : Full cs fl id s) (env : Env) (c : Corr) (o : Want) :
    ∀ (es before : List (FanEntry Want KnownCb)), Full cs fl id (s.knownMsgIn env c o before es)
  | [], _ => h
  | e :: es, before => by
    unfold State.knownMsgIn
    split
    · dsimp only
      split
      · exact Full.knownDone (h.setKnown _) env _ _
      · exact h.setKnown _
    · exact Full.knownMsgIn h env c o es _

theorem Full.knownFailed {s : State} (h : Full cs fl id s) (env : Env) (p : Handle → Bool) : Full cs fl id (s.knownFailed env p) := by
  unfold State.knownFailed
  exact Full.foldl (fun _ _ => True) (fun _ _ _ _ => trivial) _ (fun s e => Grow.knownDone s env _ _) (fun s e h _ => h.knownDone env _ _) _ _ (h.setKnown _) (fun _ _ => trivial)

theorem Full.collectKnown {s : State} (h : Full cs fl fd s) (env : Env) : Full cs fl fd (s.collectKnown env).1 :=
  h.requests env _ (fun h c => .known h c) (fun _ _ _ => trivial)

theorem Full.explore {s : State} (h : Full cs fl id s) (env : Env) (direct : List Direct) (implicit : List Implicit) : Full cs fl id (s.explore env direct implicit) := by
  unfold State.explore
  split
  · exact h
  · exact (h.collectKnown env).knownAdd env _ _

/-! ### A step -/

theorem Full.logged {s : State} (h : Full cs fl fd s) (i : Input) (hi : (∀ p, i ≠ .exit p) ∧ (∀ p, i ≠ .ipcDestroyed p) ∧ (∀ c p x, i ≠ .configuration c p x)) :
    Full cs fl fd { s with log := s.log ++ [.inp i] } := by
  refine h.grow _ s.providers ?_ ?_ (fun o e => by rcases e with e | e <;> cases e)
  · rw [registered_snoc, h.reg]
    cases i <;> first | rfl | exact absurd rfl (hi.1 _) | exact absurd rfl (hi.2.1 _)
  · rw [currentCfg_snoc]
    cases i <;> first | rfl | exact absurd rfl (hi.2.2 _ _ _)

theorem Full.failed {s : State} (h : Full cs id id s) (env : Env) (i : Input) (p : Handle → Bool) (hc : ∀ c, currentStep c (.inp i) = c)
    (hi : ∀ ps, registeredStep ps (.inp i) = ps.filter fun x => !p x.process) (hg : Goes i p) :
    Full cs id id (({ s with log := s.log ++ [.inp i] } : State).failed env p) := by
  unfold State.failed
  dsimp only
  have h1 := h.grow (.inp i) (s.providers.filter fun x => !p x.process) (by rw [registered_snoc, hi, h.reg]) (by rw [currentCfg_snoc, hc]) (fun o e => by rcases e with e | e <;> cases e)
  have h2 : Full cs (failPend p) (failPend p) { s with log := s.log ++ [.inp i], providers := s.providers.filter fun x => !p x.process } :=
    ⟨h1.reg, h1.tab, fun e he => (h.look e he).failed hg, fun e he => (h.disc e he).failed hg, h1.acc, h1.api, h1.stop, h1.right⟩
  exact ((h2.discFailed env).lookupFailed env).knownFailed env p

theorem Full.step {s : State} (h : Full cs id id s) (x : Env × Input) : Full cs id id (s.step x) := by
  unfold State.step
  split
  · exact h
  obtain ⟨env, i⟩ := x
  have mem : Item.inp i ∈ s.log ++ [Item.inp i] := List.mem_append.mpr (Or.inr (List.mem_singleton.mpr rfl))
  cases i with
  | exit pid => exact h.failed env (.exit pid) (·.pid == pid) (fun c => rfl) (fun ps => rfl) (fun x rest hx => Or.inl (by rw [eq_of_beq hx]; simp))
  | ipcDestroyed ipc => exact h.failed env (.ipcDestroyed ipc) (·.ipc == ipc) (fun c => rfl) (fun ps => rfl) (fun x rest hx => Or.inr (by rw [eq_of_beq hx]; simp))
  | registration corr process abilities =>
    have hl := h.logged (.registration corr process abilities) ⟨fun p e => (by cases e), fun p e => (by cases e), fun _ _ _ e => (by cases e)⟩
    generalize ({ s with log := s.log ++ [.inp (.registration corr process abilities)] } : State) = t at hl
    show Full cs id id (if env.reach process.ipc = true then (t.send env process.ipc (.registrationReply process corr abilities)).register process abilities else t.send env process.ipc (.registrationReply process corr abilities))
    unfold State.send State.register
    split
    · dsimp only
      have hg := hl.grow (.out (.registrationReply process corr abilities)) (registered (t.log ++ [.out (.registrationReply process corr abilities)])) rfl (currentCfg_sent _ _ rfl)
        (fun o e => by rcases e with e | e <;> cases e; trivial)
      have er : registered (t.log ++ [.out (.registrationReply process corr abilities)]) =
          if t.providers.any (·.process.ipc == process.ipc) then t.providers else t.providers ++ [{ process := process, abilities := abilities }] := by
        rw [registered_snoc, hl.reg]; rfl
      rw [er] at hg
      split
      · rename_i hr
        rw [if_pos hr] at hg
        exact hg
      · rename_i hr
        rw [if_neg hr] at hg
        exact hg
    · exact hl.grow _ t.providers (by rw [registered_snoc, hl.reg]; rfl) (currentCfg_sent _ _ rfl) (fun o e => by rcases e with e | e <;> cases e; trivial)
  | api r =>
    have hl := h.logged (.api r) ⟨fun p e => (by cases e), fun p e => (by cases e), fun _ _ _ e => (by cases e)⟩
    generalize ht : ({ s with log := s.log ++ [.inp (.api r)] } : State) = t at hl
    have hm : Item.inp (.api r) ∈ t.log := by rw [← ht]; exact mem
    dsimp only [State.handle]
    split
    · rename_i hs
      refine hl.send env _ _ ⟨r, hm, rfl, rfl, fun t ht hn => Or.inl ?_⟩
      rcases (Bool.or_eq_true _ _).mp hs with hs | hs
      · exact hl.stop hs
      · rw [wants_any ht] at hs; cases hs
    · split
      · refine ⟨hl.reg, hl.tab.same rfl rfl, hl.look, hl.disc, hl.acc, ?_, hl.stop, hl.right⟩
        intro q hq
        rcases List.mem_append.mp hq with hq | hq
        · exact hl.api q hq
        · rw [List.mem_singleton.mp hq]; exact hm
      · exact hl.aggregated env _ _ _ (fun q hq => by cases hq) (fun q hq => by rw [List.mem_singleton.mp hq]; exact hm)
  | request forward r =>
    have hl := h.logged (.request forward r) ⟨fun p e => (by cases e), fun p e => (by cases e), fun _ _ _ e => (by cases e)⟩
    generalize ht : ({ s with log := s.log ++ [.inp (.request forward r)] } : State) = t at hl
    have hm : Item.inp (.request forward r) ∈ t.log := by rw [← ht]; exact mem
    dsimp only [State.handle]
    split
    · rename_i hs
      cases forward
      · exact hl.send env _ _ (Or.inr ⟨r, hm, rfl, rfl, fun t ht hn => Or.inl (hl.stop hs)⟩)
      · exact hl.send env _ _ (Or.inl ⟨r, hm, rfl, rfl, fun t ht hn => Or.inl (hl.stop hs)⟩)
    · cases forward
      · exact hl.localLookup env .internal r hm
      · exact hl.localLookup env .extended r hm
  | rediscovery corr process =>
    have hl := h.logged (.rediscovery corr process) ⟨fun p e => (by cases e), fun p e => (by cases e), fun _ _ _ e => (by cases e)⟩
    exact (hl.collectKnown env).knownAdd env _ _
  | lookupReply corr o =>
    have hl := h.logged (.lookupReply corr o) ⟨fun p e => (by cases e), fun p e => (by cases e), fun _ _ _ e => (by cases e)⟩
    exact hl.lookupMsgIn env corr o (fun e he => (h.look e he).replied corr o) _ [] rfl
  | reply corr o =>
    have hl := h.logged (.reply corr o) ⟨fun p e => (by cases e), fun p e => (by cases e), fun _ _ _ e => (by cases e)⟩
    exact hl.discMsgIn env corr o (fun e he => DiscOk.replied (h.tab.same rfl rfl) corr o (h.disc e he)) _ [] rfl
  | knownReply corr w =>
    have hl := h.logged (.knownReply corr w) ⟨fun p e => (by cases e), fun p e => (by cases e), fun _ _ _ e => (by cases e)⟩
    exact hl.knownMsgIn env corr w _ []
  | direct d =>
    have hl := h.logged (.direct d) ⟨fun p e => (by cases e), fun p e => (by cases e), fun _ _ _ e => (by cases e)⟩
    dsimp only [State.handle]
    split
    · exact hl
    · exact ⟨hl.reg, hl.tab.same rfl rfl, hl.look, hl.disc, hl.acc, hl.api, hl.stop, hl.right⟩
  | implicit d =>
    have hl := h.logged (.implicit d) ⟨fun p e => (by cases e), fun p e => (by cases e), fun _ _ _ e => (by cases e)⟩
    dsimp only [State.handle]
    split
    · exact hl
    · split
      · exact hl
      · exact ⟨hl.reg, hl.tab.same rfl rfl, hl.look, hl.disc, hl.acc, hl.api, hl.stop, hl.right⟩
  | timeout =>
    have hl := h.logged .timeout ⟨fun p e => (by cases e), fun p e => (by cases e), fun _ _ _ e => (by cases e)⟩
    generalize ({ s with log := s.log ++ [.inp .timeout] } : State) = t at hl
    dsimp only [State.handle]
    have h0 : Full cs id id { t with accumulate := {} } :=
      ⟨hl.reg, hl.tab.same rfl rfl, hl.look, hl.disc, fun q hq => (by cases hq), fun q hq => (by cases hq), hl.stop, hl.right⟩
    have h1 := h0.explore env t.accumulate.direct t.accumulate.implicit
    have g := Grow.explore { t with accumulate := {} } env t.accumulate.direct t.accumulate.implicit
    exact h1.aggregated env _ _ _ (fun r hr => g.pres (P := fun l => LDone l .extended t.accumulate.lookup r) (fun _ _ h => h.more) (hl.acc r hr)) (fun r hr => g.mem (hl.api r hr))
  | configuration corr process services =>
    dsimp only [State.handle]
    refine Full.send ?_ env _ _ trivial
    have ht := tables_configure { s with log := s.log ++ [.inp (.configuration corr process services)] } services
    rw [configure_same] at ht ⊢
    refine ⟨?_, ?_, fun e he => (h.look e he).more, fun e he => (h.disc e he).more, fun r hr => (h.acc r hr).more, fun r hr => mem_left (h.api r hr), fun hs => mem_left (h.stop hs), ?_⟩
    · show s.providers = registered (s.log ++ _)
      rw [registered_snoc, h.reg]; rfl
    · show Tables (currentCfg cs (s.log ++ [_])) _
      rw [currentCfg_snoc]
      exact ht
    · exact h.right.snoc (fun o e => by rcases e with e | e <;> cases e)
  | shutdown =>
    have hl := h.logged .shutdown ⟨fun p e => (by cases e), fun p e => (by cases e), fun _ _ _ e => (by cases e)⟩
    exact ⟨hl.reg, hl.tab.same rfl rfl, hl.look, hl.disc, hl.acc, hl.api, fun _ => mem, hl.right⟩

theorem run_full (domain : Domain) (cs : List SvcCfg) (xs : List (Env × Input)) : Full cs id id (State.run domain cs xs) := by
  have h0 : Full cs id id (State.init domain cs) := by
    have ht := tables_configure ({ domain := domain } : State) cs
    unfold State.init
    rw [configure_same] at ht ⊢
    exact ⟨rfl, ht, fun p hp => (by cases hp), fun p hp => (by cases hp), fun p hp => (by cases hp), fun p hp => (by cases hp), fun hs => (by cases hs),
      fun b o a e => by rcases e with e | e <;> (cases b <;> cases e)⟩
  unfold State.run
  suffices ∀ (xs : List (Env × Input)) (s : State), Full cs id id s → Full cs id id (xs.foldl State.step s) from this xs _ h0
  intro xs
  induction xs with
  | nil => exact fun s h => h
  | cons x xs ih => exact fun s h => ih _ (h.step x)

end Casual.Discovery
