import Verif.Conv.Model
/-!
What a step does, in a form that proofs can use.
-/
namespace Casual.Conv

theorem takeFirst_some {f : Msg → Bool} : ∀ {l : List Msg} {m : Msg} {rest : List Msg},
    takeFirst f l = some (m, rest) →
    ∃ pre post, l = pre ++ m :: post ∧ rest = pre ++ post ∧ f m = true ∧ ∀ x ∈ pre, f x = false
  | [], m, rest, h => by simp [takeFirst] at h
  | a :: l, m, rest, h => by
    unfold takeFirst at h
    split at h
    · rename_i hf
      simp only [Option.some.injEq, Prod.mk.injEq] at h
      obtain ⟨rfl, rfl⟩ := h
      exact ⟨[], l, rfl, rfl, hf, by simp⟩
    · rename_i hf
      simp only [Option.map_eq_some_iff] at h
      obtain ⟨⟨m', r'⟩, h1, h2⟩ := h
      simp only [Prod.mk.injEq] at h2
      obtain ⟨rfl, rfl⟩ := h2
      obtain ⟨pre, post, e1, e2, e3, e4⟩ := takeFirst_some h1
      refine ⟨a :: pre, post, by rw [e1]; rfl, by rw [e2]; rfl, e3, ?_⟩
      intro x hx
      rcases List.mem_cons.1 hx with rfl | hx
      · simpa using hf
      · exact e4 x hx

theorem takeFirst_none {f : Msg → Bool} : ∀ {l : List Msg},
    takeFirst f l = none ↔ ∀ x ∈ l, f x = false
  | [] => by simp [takeFirst]
  | a :: l => by
    unfold takeFirst
    split
    · rename_i hf
      simp only [reduceCtorEq, List.mem_cons, forall_eq_or_imp, false_iff]
      intro h
      rw [hf] at h
      exact absurd h.1 (by simp)
    · rename_i hf
      rw [Option.map_eq_none_iff, takeFirst_none]
      constructor
      · intro h x hx
        rcases List.mem_cons.1 hx with rfl | hx
        · simpa using hf
        · exact h x hx
      · intro h x hx
        exact h x (List.mem_cons_of_mem _ hx)

theorem lookup_some {t : Table} {d : Int} {v : Val} (h : lookup t d = some v) :
    t[d.toNat]? = some (some v) ∧ d = (d.toNat : Int) := by
  unfold lookup at h
  split at h
  · rename_i h0
    refine ⟨?_, by omega⟩
    cases hx : t[d.toNat]? with
    | none => rw [hx] at h; simp at h
    | some o => rw [hx] at h; simp only [Option.join_some] at h; rw [h]
  · simp at h

theorem lookup_ofNat {t : Table} {i : Nat} {v : Val} (h : t[i]? = some (some v)) :
    lookup t (i : Int) = some v := by
  unfold lookup
  simp [h]

/-- The table with a new value: at a place that was free, or at the end. -/
theorem reserve_cases (t : Table) (v : Val) :
    (t[(reserve t v).1]? = some none ∧ (reserve t v).2 = t.set (reserve t v).1 (some v)) ∨
    ((reserve t v).1 = t.length ∧ (reserve t v).2 = t ++ [some v]) := by
  unfold reserve
  split
  · rename_i i hi
    left
    obtain ⟨h1, h2, _⟩ := List.findIdx?_eq_some_iff_getElem.1 hi
    refine ⟨?_, rfl⟩
    show t[i]? = some none
    rw [List.getElem?_eq_getElem h1]
    simp only [Option.isNone_iff_eq_none] at h2
    rw [h2]
  · right
    exact ⟨rfl, rfl⟩

/-- Reserve, and unreserve: at most a free place more. -/
theorem close_reserve (t : Table) (v : Val) :
    close (reserve t v).2 (reserve t v).1 = t ∨ close (reserve t v).2 (reserve t v).1 = t ++ [none] := by
  rcases reserve_cases t v with ⟨h1, h2⟩ | ⟨h1, h2⟩
  · left
    rw [h2]
    unfold close
    rw [List.set_set]
    apply List.ext_getElem?
    intro j
    rw [List.getElem?_set]
    split
    · rename_i hj
      subst hj
      obtain ⟨hl, _⟩ := List.getElem?_eq_some_iff.1 h1
      rw [if_pos hl, h1]
    · rfl
  · right
    rw [h2, h1]
    unfold close
    rw [List.set_append_right _ _ (Nat.le_refl _)]
    simp

/-- The event with which a conversation ends when the message has been found, in `tpsend` or `tprecv`. -/
def endOf (dx : Duplex) : Msg → Event × Int × Option Nat
  | .disconnect _ => (.disconnect, 0, none)
  | .data _ _ code user x =>
    if dx = .send then (code.sendEvent, if code = .fail then user else 0, none)
    else (code.recvEvent, if code = .ok ∨ code = .fail then user else 0, some x)
  | _ => (.serviceError, 0, none)

/-- What a step does. -/
inductive Move (srv : Nat → Bool) (w : World) : Act → World → Prop
  | same (a : Act) : Move srv w a w
  /-- a message without handler -/
  | drop (q : Nat) (good : Bool) (m : Msg) (rest : List Msg)
    (hs : srv q = true) (ha : (w.procs q).alive = true) (hb : (w.procs q).busy = false)
    (hc : (w.procs q).calling = none)
    (hi : (w.procs q).inbox = m :: rest) (hm : ∀ c s dx x, m ≠ .request c s dx x) :
    Move srv w (.pump q good) (w.set q { (w.procs q) with inbox := rest })
  | started (q c src : Nat) (dx : Duplex) (x : Nat) (rest : List Msg)
    (hs : srv q = true) (ha : (w.procs q).alive = true) (hb : (w.procs q).busy = false)
    (hc : (w.procs q).calling = none)
    (hi : (w.procs q).inbox = .request c src dx x :: rest)
    (hu : ((w.set q { (w.procs q) with inbox := rest }).procs src).alive = true) :
    Move srv w (.pump q true)
      (((w.set q { (w.procs q) with
          inbox := rest, table := (reserve (w.procs q).table ⟨c, src, dx, false⟩).2, busy := true,
          frame := some ⟨c, src, (reserve (w.procs q).table ⟨c, src, dx, false⟩).1⟩ }).deliver src (.reply c)).note
        (.started c (dx == .send) x))
  | orphan (q c src : Nat) (dx : Duplex) (x : Nat) (rest : List Msg)
    (hs : srv q = true) (ha : (w.procs q).alive = true) (hb : (w.procs q).busy = false)
    (hi : (w.procs q).inbox = .request c src dx x :: rest)
    (hu : ((w.set q { (w.procs q) with inbox := rest }).procs src).alive = false) :
    Move srv w (.pump q true)
      (((w.set q { (w.procs q) with inbox := rest, alive := false }).note (.failed c)).note (.exited q))
  | failed (q c src : Nat) (dx : Duplex) (x : Nat) (rest : List Msg)
    (hs : srv q = true) (ha : (w.procs q).alive = true) (hb : (w.procs q).busy = false)
    (hi : (w.procs q).inbox = .request c src dx x :: rest) :
    Move srv w (.pump q false)
      (((((w.set q { (w.procs q) with inbox := rest }).deliver src (.data c .send .error 0 0)).set q
        { (w.procs q) with inbox := rest, alive := false }).note (.failed c)).note (.exited q))
  | begin (q : Nat) (hs : srv q = true) (ha : (w.procs q).alive = true)
    (hb : (w.procs q).busy = false) :
    Move srv w (.begin q) (w.set q { (w.procs q) with busy := true })
  | finish (q : Nat) (hs : srv q = true) (hf : (w.procs q).free true = true) (hn : (w.procs q).frame = none) :
    Move srv w (.finish q) (w.set q { (w.procs q) with busy := false })
  | refused (p : Nat) (target : Option Nat) (so ro : Bool) (x : Nat) (t : Table)
    (ht : t = (w.procs p).table ∨ t = (w.procs p).table ++ [none]) :
    Move srv w (.connect p target so ro x) (w.set p { (w.procs p) with table := t })
  | asked (p q : Nat) (so ro : Bool) (x : Nat) (hf : (w.procs p).free (srv p) = true)
    (hq : q ≠ p) (hu : (w.procs q).alive = true) (hx : so ≠ ro) :
    Move srv w (.connect p (some q) so ro x)
      ((({ (w.set p { (w.procs p) with
          table := (reserve (w.procs p).table ⟨w.convs.length, q, if ro then .receive else .send, true⟩).2,
          calling := some ((reserve (w.procs p).table ⟨w.convs.length, q, if ro then .receive else .send, true⟩).1,
            w.convs.length) }) with
        convs := w.convs ++ [(⟨p, q⟩ : Parties)] } : World).deliver q
          (.request w.convs.length p (if ro then Duplex.send else .receive) x)).note (.asked w.convs.length ro x))
  | connected (p i c : Nat) (pre post : List Msg) (ha : (w.procs p).alive = true)
    (hc : (w.procs p).calling = some (i, c)) (hi : (w.procs p).inbox = pre ++ .reply c :: post) :
    Move srv w (.connected p)
      ((w.set p { (w.procs p) with inbox := pre ++ post, calling := none }).note (.connected c i))
  | sent (p : Nat) (d : Int) (x : Nat) (ro : Bool) (v : Val) (hf : (w.procs p).free (srv p) = true)
    (ht : (w.procs p).table[d.toNat]? = some (some v)) (hd : v.duplex = .send)
    (hn : ∀ m ∈ (w.procs p).inbox, isConversation v.corr m = false)
    (hu : (w.procs v.peer).alive = true) :
    Move srv w (.send p d x ro)
      (((w.set p { (w.procs p) with
          table := (w.procs p).table.set d.toNat (some { v with duplex := if ro then Duplex.receive else .send }) }).deliver
        v.peer (.data v.corr (if ro then Duplex.send else .receive) .absent 0 x)).note (.sent p v.corr x))
  | ended (a : Act) (p : Nat) (d : Int) (v : Val) (m : Msg) (pre post : List Msg)
    (hact : (∃ x ro, a = .send p d x ro ∧ v.duplex = .send) ∨ (∃ nb, a = .recv p d nb ∧ v.duplex = .receive))
    (hf : (w.procs p).free (srv p) = true)
    (ht : (w.procs p).table[d.toNat]? = some (some v))
    (hi : (w.procs p).inbox = pre ++ m :: post) (hm : isConversation v.corr m = true)
    (hp : m = .disconnect v.corr ∨
      ((∀ y ∈ pre, isConversation v.corr y = false) ∧
        (v.duplex = .receive → ∀ c dx u x, m ≠ .data c dx .absent u x))) :
    Move srv w a ((w.set p ((w.procs p).ended d.toNat (pre ++ post))).note
      (.ended p v.corr (endOf v.duplex m).1 (endOf v.duplex m).2.1 (endOf v.duplex m).2.2))
  | lost (p : Nat) (d : Int) (a : Act) (v : Val)
    (hact : (∃ x ro, a = .send p d x ro) ∨ (a = .disconnect p d ∧ v.initiator = true))
    (hf : (w.procs p).free (srv p) = true)
    (ht : (w.procs p).table[d.toNat]? = some (some v)) (hu : (w.procs v.peer).alive = false) :
    Move srv w a ((w.set p { (w.procs p) with table := close (w.procs p).table d.toNat }).note (.lost p v.corr))
  | got (p : Nat) (d : Int) (nb : Bool) (v : Val) (dx : Duplex) (u : Int) (x : Nat) (pre post : List Msg)
    (hf : (w.procs p).free (srv p) = true)
    (ht : (w.procs p).table[d.toNat]? = some (some v)) (hd : v.duplex = .receive)
    (hi : (w.procs p).inbox = pre ++ .data v.corr dx .absent u x :: post)
    (hp : ∀ y ∈ pre, isConversation v.corr y = false)
    (hn : ∀ y ∈ (w.procs p).inbox, isDisconnect v.corr y = false) :
    Move srv w (.recv p d nb)
      ((w.set p { (w.procs p) with
          inbox := pre ++ post,
          table := (w.procs p).table.set d.toNat (some { v with duplex := if dx = .send then .send else .receive }) }).note
        (.got p v.corr x (decide (dx = .send))))
  | disconnected (p : Nat) (d : Int) (v : Val) (hf : (w.procs p).free (srv p) = true)
    (ht : (w.procs p).table[d.toNat]? = some (some v)) (hv : v.initiator = true)
    (hu : (w.procs v.peer).alive = true) :
    Move srv w (.disconnect p d)
      (((w.set p (if v.duplex = .receive then
            discard { (w.procs p) with table := close (w.procs p).table d.toNat } v.corr
          else { (w.procs p) with table := close (w.procs p).table d.toNat })).deliver
        v.peer (.disconnect v.corr)).note (.disconnected v.corr))
  | returned (q : Nat) (f : Frame) (success : Bool) (user : Int) (x : Nat) (transOk : Bool) (v : Val)
    (hf : (w.procs q).free (srv q) = true) (hfr : (w.procs q).frame = some f)
    (hu : (w.procs f.peer).alive = true) (hl : (w.procs q).table[f.desc]? = some (some v)) :
    Move srv w (.ret q success user x transOk)
      (((w.deliver f.peer (.data f.corr .terminated (replyCode success transOk) user x)).note
        (.returned f.corr success user x transOk)).set q
          { (w.procs q) with table := close (w.procs q).table f.desc, busy := false, frame := none })
  | thrown (q : Nat) (f : Frame) (success : Bool) (user : Int) (x : Nat) (transOk : Bool)
    (hf : (w.procs q).free (srv q) = true) (hfr : (w.procs q).frame = some f)
    (hu : (w.procs f.peer).alive = true) (hl : lookup (w.procs q).table f.desc = none) :
    Move srv w (.ret q success user x transOk)
      ((((w.deliver f.peer (.data f.corr .terminated (replyCode success transOk) user x)).note
        (.returned f.corr success user x transOk)).set q { (w.procs q) with alive := false }).note (.exited q))
  | unheard (q : Nat) (f : Frame) (success : Bool) (user : Int) (x : Nat) (transOk : Bool)
    (hf : (w.procs q).free (srv q) = true) (hfr : (w.procs q).frame = some f)
    (hu : (w.procs f.peer).alive = false) :
    Move srv w (.ret q success user x transOk)
      ((w.set q { (w.procs q) with alive := false }).note (.exited q))
  | died (p : Nat) : Move srv w (.die p) (w.set p { (w.procs p) with alive := false })
  | reported (c : Nat) (k : Parties) (hk : w.convs[c]? = some k) :
    Move srv w (.report c) ((w.deliver k.initiator (.service c)).note (.reported c))

theorem set_self (w : World) (p : Nat) : w.set p (w.procs p) = w := by
  unfold World.set
  have : (fun q => if q = p then w.procs p else w.procs q) = w.procs := by
    funext q
    split
    · rename_i h; rw [h]
    · rfl
  rw [this]

theorem set_set (w : World) (p : Nat) (x y : Proc) : (w.set p x).set p y = w.set p y := by
  unfold World.set
  congr 1
  funext q
  simp only
  split <;> rfl

theorem procs_set (w : World) (p : Nat) (x : Proc) (q : Nat) :
    (w.set p x).procs q = if q = p then x else w.procs q := rfl

theorem procs_set_self (w : World) (p : Nat) (x : Proc) : (w.set p x).procs p = x := by simp [procs_set]

theorem isDisconnect_eq {c : Nat} {m : Msg} (h : isDisconnect c m = true) : m = .disconnect c := by
  cases m <;> simp [isDisconnect] at h
  rw [h]

theorem isReply_eq {c : Nat} {m : Msg} (h : isReply c m = true) : m = .reply c := by
  cases m <;> simp [isReply] at h
  rw [h]

theorem isConversation_corr {c : Nat} {m : Msg} (h : isConversation c m = true) : m.corr = c := by
  cases m <;> simp [isConversation] at h <;> exact h

theorem corrOf_eq {p : Proc} {d : Int} {v : Val} (h : lookup p.table d = some v) : corrOf p d = v.corr := by
  unfold corrOf
  rw [h]

theorem set_same_val {t : Table} {i : Nat} {v : Val} (h : t[i]? = some (some v)) : t.set i (some v) = t := by
  apply List.ext_getElem?
  intro j
  rw [List.getElem?_set]
  split
  · rename_i hj
    subst hj
    obtain ⟨hl, _⟩ := List.getElem?_eq_some_iff.1 h
    rw [if_pos hl, h]
  · rfl

theorem move_send (srv : Nat → Bool) (w : World) (p : Nat) (d : Int) (x : Nat) (ro : Bool) :
    Move srv w (.send p d x ro) (step srv w (.send p d x ro)) := by
  unfold step
  simp only
  split
  rotate_left
  · exact .same _
  rename_i hf
  unfold send
  split
  · simp only [noteSend, World.post, set_self]; exact .same _
  rename_i v hv
  obtain ⟨ht, _⟩ := lookup_some hv
  have hco := corrOf_eq hv
  split
  · simp only [noteSend, World.post, set_self]; exact .same _
  rename_i hd
  have hd' : v.duplex = .send := Classical.byContradiction hd
  simp only
  split
  · rename_i m rest h
    obtain ⟨pre, post, e1, e2, e3, e4⟩ := takeFirst_some h
    simp only [noteSend, World.post]
    have := Move.ended (srv := srv) (w := w) (.send p d x ro) p d v m pre post (Or.inl ⟨x, ro, rfl, hd'⟩) hf ht e1
      (by rw [isDisconnect_eq e3]; simp [isConversation]) (Or.inl (isDisconnect_eq e3))
    rw [isDisconnect_eq e3] at this
    rw [hco, e2]
    simpa [endOf] using this
  · rename_i hnd
    split
    · rename_i c dx code user y rest h
      obtain ⟨pre, post, e1, e2, e3, e4⟩ := takeFirst_some h
      simp only [noteSend, World.post]
      have := Move.ended (srv := srv) (w := w) (.send p d x ro) p d v _ pre post (Or.inl ⟨x, ro, rfl, hd'⟩) hf ht e1 e3
        (Or.inr ⟨e4, by rw [hd']; intro h; cases h⟩)
      rw [hco, e2]
      simpa [endOf, hd'] using this
    · rename_i c rest h
      exfalso
      obtain ⟨pre, post, e1, e2, e3, e4⟩ := takeFirst_some h
      have := takeFirst_none.1 hnd (.disconnect c) (by rw [e1]; simp)
      simp [isDisconnect, isConversation] at this e3
      exact this e3
    · rename_i m rest h1 h2 h
      obtain ⟨pre, post, e1, e2, e3, e4⟩ := takeFirst_some h
      simp only [noteSend, World.post]
      have := Move.ended (srv := srv) (w := w) (.send p d x ro) p d v _ pre post (Or.inl ⟨x, ro, rfl, hd'⟩) hf ht e1 e3
        (Or.inr ⟨e4, by rw [hd']; intro h; cases h⟩)
      rw [hco, e2]
      cases m with
      | data c dx code user y => exact absurd rfl (h1 c dx code user y)
      | disconnect c => exact absurd rfl (h2 c)
      | request c a b e => simp [isConversation] at e3
      | reply c => simp [isConversation] at e3
      | service c => simpa [endOf, hd'] using this
    · rename_i h
      have hn := takeFirst_none.1 h
      split
      · rename_i hu
        simp only [noteSend, World.post, hco]
        have := Move.sent (srv := srv) (w := w) p d x ro v hf ht hd' hn hu
        cases ro <;> simpa [Duplex.invert] using this
      · rename_i hu
        simp only [noteSend, World.post, hco]
        exact Move.lost (srv := srv) (w := w) p d _ v (Or.inl ⟨x, ro, rfl⟩) hf ht (by simpa [World.up] using hu)

theorem move_recv (srv : Nat → Bool) (w : World) (p : Nat) (d : Int) (nb : Bool) :
    Move srv w (.recv p d nb) (step srv w (.recv p d nb)) := by
  unfold step
  simp only
  split
  rotate_left
  · exact .same _
  rename_i hf
  unfold recv
  split
  · simp only [noteRecv, set_self]; exact .same _
  rename_i v hv
  obtain ⟨ht, _⟩ := lookup_some hv
  have hco := corrOf_eq hv
  split
  · simp only [noteRecv, set_self]; exact .same _
  rename_i hd
  have hd' : v.duplex = .receive := Classical.byContradiction hd
  split
  · rename_i m rest h
    obtain ⟨pre, post, e1, e2, e3, e4⟩ := takeFirst_some h
    simp only [noteRecv]
    have := Move.ended (srv := srv) (w := w) (.recv p d nb) p d v m pre post (Or.inr ⟨nb, rfl, hd'⟩) hf ht e1
      (by rw [isDisconnect_eq e3]; simp [isConversation]) (Or.inl (isDisconnect_eq e3))
    rw [isDisconnect_eq e3] at this
    rw [hco, e2]
    simpa [endOf] using this
  · rename_i hnd
    split
    · cases nb <;> simp only [noteRecv, set_self] <;> exact .same _
    · rename_i c dx code user y rest h
      obtain ⟨pre, post, e1, e2, e3, e4⟩ := takeFirst_some h
      split
      · rename_i hc
        simp only
        have := Move.ended (srv := srv) (w := w) (.recv p d nb) p d v _ pre post (Or.inr ⟨nb, rfl, hd'⟩) hf ht e1 e3
          (Or.inr ⟨e4, by intro _ c' dx' u' x' hx; simp at hx; exact hc hx.2.2.1⟩)
        rw [hco, e2]
        cases code <;> simp [noteRecv, endOf, hd', Code.recvEvent] at this hc ⊢ <;> exact this
      · rename_i hc
        have hc' : code = .absent := Classical.byContradiction hc
        subst hc'
        have hcc : c = v.corr := by simpa [isConversation] using e3
        subst hcc
        have := Move.got (srv := srv) (w := w) p d nb v dx user y pre post hf ht hd' e1 e4 (takeFirst_none.1 hnd)
        split
        · rename_i hs
          subst hs
          simp only [noteRecv, hco, e2]
          simpa using this
        · rename_i hs
          simp only [noteRecv, hco, e2]
          simp only [hs, decide_false, if_false] at this
          have hvv : ({ v with duplex := Duplex.receive } : Val) = v := by rw [← hd']
          rw [hvv, set_same_val ht] at this
          exact this
    · rename_i c rest h
      exfalso
      obtain ⟨pre, post, e1, e2, e3, e4⟩ := takeFirst_some h
      have := takeFirst_none.1 hnd (.disconnect c) (by rw [e1]; simp)
      simp [isDisconnect, isConversation] at this e3
      exact this e3
    · rename_i m rest h1 h2 h
      obtain ⟨pre, post, e1, e2, e3, e4⟩ := takeFirst_some h
      simp only [noteRecv]
      have := Move.ended (srv := srv) (w := w) (.recv p d nb) p d v _ pre post (Or.inr ⟨nb, rfl, hd'⟩) hf ht e1 e3
        (Or.inr ⟨e4, by
          intro _ c' dx' u' x' hx
          exact h1 c' dx' .absent u' x' hx⟩)
      rw [hco, e2]
      cases m with
      | data c dx code user y => exact absurd rfl (h1 c dx code user y)
      | disconnect c => exact absurd rfl (h2 c)
      | request c a b e => simp [isConversation] at e3
      | reply c => simp [isConversation] at e3
      | service c => simpa [endOf, hd'] using this

theorem move_disconnect (srv : Nat → Bool) (w : World) (p : Nat) (d : Int) :
    Move srv w (.disconnect p d) (step srv w (.disconnect p d)) := by
  unfold step
  simp only
  split
  rotate_left
  · exact .same _
  rename_i hf
  unfold disconnect
  split
  · simp only [noteDisconnect, World.post, set_self]; exact .same _
  rename_i v hv
  obtain ⟨ht, _⟩ := lookup_some hv
  have hco := corrOf_eq hv
  split
  · simp only [noteDisconnect, World.post, set_self]; exact .same _
  rename_i hi
  simp only
  split
  · rename_i hu
    simp only [noteDisconnect, World.post, hco]
    exact Move.disconnected p d v hf ht (by simpa using hi) hu
  · rename_i hu
    simp only [noteDisconnect, World.post, hco]
    exact Move.lost p d _ v (Or.inr ⟨rfl, by simpa using hi⟩) hf ht (by simpa [World.up] using hu)

theorem move_connect (srv : Nat → Bool) (w : World) (p : Nat) (target : Option Nat) (so ro : Bool) (x : Nat) :
    Move srv w (.connect p target so ro x) (step srv w (.connect p target so ro x)) := by
  unfold step
  simp only
  split
  rotate_left
  · exact .same _
  rename_i hg
  rw [Bool.and_eq_true] at hg
  obtain ⟨hf, ht⟩ := hg
  unfold connect
  by_cases hx : (so == ro) = true
  · simp only [if_pos hx, set_self]; exact .same _
  simp only [if_neg hx]
  have hx' : so ≠ ro := by simpa using hx
  cases target with
  | none =>
    simp only
    exact Move.refused p none so ro x _ (close_reserve _ _)
  | some q =>
    simp only
    have hq : q ≠ p := by simpa using ht
    by_cases hu : w.up q = true
    · simp only [if_pos hu]
      have := Move.asked (srv := srv) (w := w) p q so ro x hf hq hu hx'
      cases ro <;> simpa [Duplex.invert] using this
    · simp only [if_neg hu]
      exact Move.refused p (some q) so ro x _ (close_reserve _ _)

theorem move_connected (srv : Nat → Bool) (w : World) (p : Nat) :
    Move srv w (.connected p) (step srv w (.connected p)) := by
  unfold step
  simp only
  split
  rotate_left
  · exact .same _
  rename_i ha
  unfold connected
  cases hc : (w.procs p).calling with
  | none => simp only; exact .same _
  | some ic =>
    obtain ⟨i, c⟩ := ic
    simp only
    cases ht : takeFirst (isReply c) (w.procs p).inbox with
    | none => simp only; exact .same _
    | some mr =>
      obtain ⟨m, rest⟩ := mr
      obtain ⟨pre, post, e1, e2, e3, e4⟩ := takeFirst_some ht
      simp only
      rw [isReply_eq e3] at e1
      rw [e2]
      exact Move.connected p i c pre post ha hc e1

theorem move_pump (srv : Nat → Bool) (w : World) (q : Nat) (good : Bool) :
    Move srv w (.pump q good) (step srv w (.pump q good)) := by
  unfold step
  simp only
  split
  rotate_left
  · exact .same _
  rename_i hg
  simp only [Bool.and_eq_true, Bool.not_eq_true', Option.isNone_iff_eq_none] at hg
  obtain ⟨⟨⟨hs, ha⟩, hc⟩, hb⟩ := hg
  split
  · exact .same _
  · rename_i c src dx x rest hi
    unfold serve
    simp only [procs_set_self]
    cases good with
    | true =>
      simp only [if_true]
      split
      · rename_i hu
        simp only [set_set]
        exact Move.started q c src dx x rest hs ha hb hc hi hu
      · rename_i hu
        simp only [set_set]
        exact Move.orphan q c src dx x rest hs ha hb hi (by simpa [World.up] using hu)
    | false =>
      simp only [Bool.false_eq_true, if_false]
      exact Move.failed q c src dx x rest hs ha hb hi
  · rename_i m rest hm hi
    exact Move.drop q good m rest hs ha hb hc hi (by intro c s dx x h; exact hm c s dx x (by rw [h]))

theorem step_move (srv : Nat → Bool) (w : World) (a : Act) : Move srv w a (step srv w a) := by
  cases a with
  | pump q good => exact move_pump srv w q good
  | begin q =>
    unfold step
    simp only
    split
    · rename_i hg
      simp only [Bool.and_eq_true, Bool.not_eq_true'] at hg
      exact Move.begin q hg.1.1.1 hg.1.1.2 hg.2
    · exact .same _
  | finish q =>
    unfold step
    simp only
    split
    · rename_i hg
      simp only [Bool.and_eq_true, Option.isNone_iff_eq_none] at hg
      exact Move.finish q hg.1.1 hg.1.2 hg.2
    · exact .same _
  | connect p t so ro x => exact move_connect srv w p t so ro x
  | connected p => exact move_connected srv w p
  | send p d x ro => exact move_send srv w p d x ro
  | recv p d nb => exact move_recv srv w p d nb
  | disconnect p d => exact move_disconnect srv w p d
  | ret q s u x t =>
    unfold step
    simp only
    split
    rotate_left
    · exact .same _
    rename_i hf
    split
    rotate_left
    · exact .same _
    rename_i f hfr
    unfold serviceReturn
    simp only
    split
    · rename_i hu
      cases hl : lookup (w.procs q).table f.desc with
      | none =>
        simp only [Option.isSome_none, Bool.false_eq_true, if_false]
        exact Move.thrown q f s u x t hf hfr hu hl
      | some v =>
        simp only [Option.isSome_some, if_true]
        exact Move.returned q f s u x t v hf hfr hu (by simpa using (lookup_some hl).1)
    · rename_i hu
      exact Move.unheard q f s u x t hf hfr (by simpa [World.up] using hu)
  | die p => exact Move.died p
  | report c =>
    unfold step
    simp only
    split
    · rename_i k hk
      exact Move.reported c k hk
    · exact .same _

end Casual.Conv
