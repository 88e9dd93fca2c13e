import Verif.Conv.Flow
/-!
What a step does to one process.
-/
namespace Casual.Conv

/-- Why a message arrives at `r`. -/
inductive Sent (srv : Nat → Bool) (w w' : World) (r : Nat) : Msg → Prop
  | request (p : Nat) (so ro : Bool) (x : Nat) (hf : (w.procs p).free (srv p) = true)
    (hr : r ≠ p) (hk : w'.convs[w.convs.length]? = some ⟨p, r⟩)
    (hc : ∃ i, (w'.procs p).calling = some (i, w.convs.length)) (hi : (w'.procs p).inbox = (w.procs p).inbox)
    (hl : w'.log = .asked w.convs.length ro x :: w.log) :
    Sent srv w w' r (.request w.convs.length p (if ro then .send else .receive) x)
  | reply (q c : Nat) (dx : Duplex) (x : Nat) (rest : List Msg) (hi : (w.procs q).inbox = .request c r dx x :: rest)
    (hi' : (w'.procs q).inbox = rest) (hq : r ≠ q)
    (hl : w'.log = .started c (dx == .send) x :: w.log) : Sent srv w w' r (.reply c)
  | data (p : Nat) (v : Val) (dx : Duplex) (x : Nat) (hf : (w.procs p).free (srv p) = true)
    (ht : some v ∈ (w.procs p).table) (hd : v.duplex = .send) (hv : v.peer = r)
    (hn : ∀ m ∈ (w.procs p).inbox, isConversation v.corr m = false)
    (hl : w'.log = .sent p v.corr x :: w.log) :
    Sent srv w w' r (.data v.corr dx .absent 0 x)
  | failed (c q : Nat) (hl : w'.log = .exited q :: .failed c :: w.log) : Sent srv w w' r (.data c .send .error 0 0)
  | returned (q : Nat) (f : Frame) (success : Bool) (user : Int) (x : Nat) (transOk : Bool)
    (hfr : (w.procs q).frame = some f)
    (hl : .returned f.corr success user x transOk ∈ w'.log) :
    Sent srv w w' r (.data f.corr .terminated (replyCode success transOk) user x)
  | disconnect (p : Nat) (v : Val) (hf : (w.procs p).free (srv p) = true) (ht : some v ∈ (w.procs p).table)
    (hi : v.initiator = true) (hv : v.peer = r) (hl : w'.log = .disconnected v.corr :: w.log) :
    Sent srv w w' r (.disconnect v.corr)
  | service (c : Nat) (hl : w'.log = .reported c :: w.log) : Sent srv w w' r (.service c)

/-- What a step does to the process `r`. -/
inductive Loc (srv : Nat → Bool) (w w' : World) (r : Nat) : Prop
  | idle (h : w'.procs r = w.procs r)
  | arrived (m : Msg) (h : w'.procs r = arrive (w.procs r) m) (hs : Sent srv w w' r m)
  | dropped (m : Msg) (rest : List Msg) (hs : srv r = true) (ha : (w.procs r).alive = true)
    (hb : (w.procs r).busy = false) (hc : (w.procs r).calling = none)
    (hi : (w.procs r).inbox = m :: rest) (hm : ∀ c s dx x, m ≠ .request c s dx x)
    (h : w'.procs r = { (w.procs r) with inbox := rest }) (hl : w'.log = w.log)
  | began (c src : Nat) (dx : Duplex) (x : Nat) (rest : List Msg) (hs : srv r = true)
    (ha : (w.procs r).alive = true) (hb : (w.procs r).busy = false) (hc : (w.procs r).calling = none)
    (hi : (w.procs r).inbox = .request c src dx x :: rest) (hsrc : src ≠ r)
    (h : w'.procs r = { (w.procs r) with
          inbox := rest, table := (reserve (w.procs r).table ⟨c, src, dx, false⟩).2, busy := true,
          frame := some ⟨c, src, (reserve (w.procs r).table ⟨c, src, dx, false⟩).1⟩ })
    (hl : w'.log = .started c (dx == .send) x :: w.log)
  | gone (ib : List Msg) (hs : ib.Sublist (w.procs r).inbox)
    (h : w'.procs r = { (w.procs r) with inbox := ib, alive := false })
  | worked (b : Bool) (hb : b = false → (w.procs r).frame = none) (hb' : b = true → (w.procs r).busy = false)
    (h : w'.procs r = { (w.procs r) with busy := b }) (hl : w'.log = w.log)
  | refused (t : Table) (ht : t = (w.procs r).table ∨ t = (w.procs r).table ++ [none])
    (h : w'.procs r = { (w.procs r) with table := t }) (hl : w'.log = w.log)
  | asked (q : Nat) (ro : Bool) (x : Nat) (hf : (w.procs r).free (srv r) = true)
    (hq : q ≠ r)
    (h : w'.procs r = { (w.procs r) with
          table := (reserve (w.procs r).table ⟨w.convs.length, q, if ro then .receive else .send, true⟩).2,
          calling := some ((reserve (w.procs r).table ⟨w.convs.length, q, if ro then .receive else .send, true⟩).1,
            w.convs.length) })
    (hl : w'.log = .asked w.convs.length ro x :: w.log)
  | connected (i c : Nat) (pre post : List Msg) (hc : (w.procs r).calling = some (i, c))
    (hi : (w.procs r).inbox = pre ++ .reply c :: post)
    (h : w'.procs r = { (w.procs r) with inbox := pre ++ post, calling := none })
    (hl : w'.log = .connected c i :: w.log)
  | sent (i : Nat) (x : Nat) (ro : Bool) (v : Val) (hf : (w.procs r).free (srv r) = true)
    (ht : (w.procs r).table[i]? = some (some v)) (hd : v.duplex = .send)
    (hn : ∀ m ∈ (w.procs r).inbox, isConversation v.corr m = false)
    (h : w'.procs r = { (w.procs r) with
          table := (w.procs r).table.set i (some { v with duplex := if ro then Duplex.receive else .send }) })
    (hl : w'.log = .sent r v.corr x :: w.log)
  | ended (i : Nat) (v : Val) (m : Msg) (pre post : List Msg) (hf : (w.procs r).free (srv r) = true)
    (ht : (w.procs r).table[i]? = some (some v))
    (hi : (w.procs r).inbox = pre ++ m :: post) (hm : isConversation v.corr m = true)
    (hp : m = .disconnect v.corr ∨
      ((∀ y ∈ pre, isConversation v.corr y = false) ∧
        (v.duplex = .receive → ∀ c dx u x, m ≠ .data c dx .absent u x)))
    (h : w'.procs r = { (w.procs r) with table := close (w.procs r).table i, inbox := pre ++ post })
    (hl : w'.log = .ended r v.corr (endOf v.duplex m).1 (endOf v.duplex m).2.1 (endOf v.duplex m).2.2 :: w.log)
  | lost (i : Nat) (v : Val) (hf : (w.procs r).free (srv r) = true)
    (ht : (w.procs r).table[i]? = some (some v))
    (h : w'.procs r = { (w.procs r) with table := close (w.procs r).table i })
    (hl : w'.log = .lost r v.corr :: w.log)
  | got (i : Nat) (v : Val) (dx : Duplex) (u : Int) (x : Nat) (pre post : List Msg)
    (hf : (w.procs r).free (srv r) = true)
    (ht : (w.procs r).table[i]? = some (some v)) (hd : v.duplex = .receive)
    (hi : (w.procs r).inbox = pre ++ .data v.corr dx .absent u x :: post)
    (hp : ∀ y ∈ pre, isConversation v.corr y = false)
    (h : w'.procs r = { (w.procs r) with
          inbox := pre ++ post,
          table := (w.procs r).table.set i (some { v with duplex := if dx = .send then .send else .receive }) })
    (hl : w'.log = .got r v.corr x (decide (dx = .send)) :: w.log)
  | disconnected (i : Nat) (v : Val) (hf : (w.procs r).free (srv r) = true)
    (ht : (w.procs r).table[i]? = some (some v)) (hv : v.initiator = true)
    (h : w'.procs r = if v.duplex = .receive then
            discard { (w.procs r) with table := close (w.procs r).table i } v.corr
          else { (w.procs r) with table := close (w.procs r).table i })
    (hl : w'.log = .disconnected v.corr :: w.log)
  | returned (f : Frame) (success : Bool) (user : Int) (x : Nat) (transOk : Bool) (v : Val)
    (hf : (w.procs r).free (srv r) = true) (hfr : (w.procs r).frame = some f)
    (ht : (w.procs r).table[f.desc]? = some (some v))
    (h : w'.procs r = { (w.procs r) with table := close (w.procs r).table f.desc, busy := false, frame := none })
    (hl : w'.log = .returned f.corr success user x transOk :: w.log)

theorem Home.peer_ne {w : World} (h : Home w) {p i : Nat} {v : Val} (ht : (w.procs p).table[i]? = some (some v)) :
    v.peer ≠ p := by
  obtain ⟨k', hk', _, hpq⟩ := h.tab p v (mem_of_idx ht)
  have := h.par k' (List.mem_of_getElem? hk')
  rcases hpq with ⟨_, h1, h2⟩ | ⟨_, h1, h2⟩
  · rw [h1, h2]; exact fun e => this e.symm
  · rw [h1, h2]; exact this

theorem Home.frame_ne {w : World} (h : Home w) {p : Nat} {f : Frame} (hf : (w.procs p).frame = some f) : f.peer ≠ p := by
  obtain ⟨k, hk, h1, h2⟩ := h.frm p f hf
  have := h.par k (List.mem_of_getElem? hk)
  rw [h1, h2]; exact this

theorem Home.request_ne {w : World} (h : Home w) {p c src : Nat} {dx : Duplex} {x : Nat}
    (hm : Msg.request c src dx x ∈ (w.procs p).inbox) : src ≠ p := by
  obtain ⟨k, hk, h1, h2, _⟩ := h.msg p _ hm
  have := h.par k (List.mem_of_getElem? hk)
  rw [h1, h2]; exact this

theorem set_other {w : World} {p r : Nat} (x : Proc) (h : r ≠ p) : (w.set p x).procs r = w.procs r := by
  rw [procs_set, if_neg h]

theorem deliver_other {w : World} {q r : Nat} (m : Msg) (h : r ≠ q) : (w.deliver q m).procs r = w.procs r := by
  rw [procs_deliver, if_neg h]

theorem deliver_self {w : World} {q : Nat} (m : Msg) : (w.deliver q m).procs q = arrive (w.procs q) m := by
  rw [procs_deliver, if_pos rfl]

theorem Move.loc {srv : Nat → Bool} {w w' : World} {a : Act} (h : Home w) (hm : Move srv w a w') (r : Nat) :
    Loc srv w w' r := by
  cases hm with
  | same => exact .idle rfl
  | drop q good m rest hs ha hb hc hi hm =>
    by_cases e : r = q
    · subst e; exact .dropped m rest hs ha hb hc hi hm (procs_set_self _ _ _) rfl
    · exact .idle (set_other _ e)
  | started q c src dx x rest hs ha hb hc hi hu =>
    have hne := h.request_ne (p := q) (by rw [hi]; exact List.mem_cons_self)
    by_cases e : r = q
    · subst e
      refine .began c src dx x rest hs ha hb hc hi hne ?_ (by simp)
      rw [procs_note, deliver_other _ (fun e => hne e.symm), procs_set_self]
    · by_cases e2 : r = src
      · subst e2
        refine .arrived (.reply c) ?_ (.reply q c dx x rest hi ?_ hne (by simp))
        · rw [procs_note, deliver_self, set_other _ hne]
        · rw [procs_note, deliver_other _ (fun e => hne e.symm), procs_set_self]
      · exact .idle (by rw [procs_note, deliver_other _ e2, set_other _ e])
  | orphan q c src dx x rest hs ha hb hi hu =>
    by_cases e : r = q
    · subst e
      refine .gone rest (by rw [hi]; exact List.sublist_cons_self _ _) ?_
      rw [procs_note, procs_note, procs_set_self]
    · exact .idle (by rw [procs_note, procs_note, set_other _ e])
  | failed q c src dx x rest hs ha hb hi =>
    have hne := h.request_ne (p := q) (by rw [hi]; exact List.mem_cons_self)
    by_cases e : r = q
    · subst e
      refine .gone rest (by rw [hi]; exact List.sublist_cons_self _ _) ?_
      rw [procs_note, procs_note, procs_set_self]
    · by_cases e2 : r = src
      · subst e2
        refine .arrived _ ?_ (.failed c q (by simp))
        rw [procs_note, procs_note, set_other _ e, deliver_self, set_other _ e]
      · exact .idle (by rw [procs_note, procs_note, set_other _ e, deliver_other _ e2, set_other _ e])
  | begin q hs ha hb =>
    by_cases e : r = q
    · subst e; exact .worked true (by intro h; cases h) (fun _ => hb) (procs_set_self _ _ _) rfl
    · exact .idle (set_other _ e)
  | finish q hs hf hn =>
    by_cases e : r = q
    · subst e; exact .worked false (fun _ => hn) (by intro h; cases h) (procs_set_self _ _ _) rfl
    · exact .idle (set_other _ e)
  | refused p target so ro x t ht =>
    by_cases e : r = p
    · subst e; exact .refused t ht (procs_set_self _ _ _) rfl
    · exact .idle (set_other _ e)
  | asked p q so ro x hf hq hu hx =>
    by_cases e : r = p
    · subst e
      refine .asked q ro x hf hq ?_ (by simp)
      rw [procs_note, (procs_two' hq).1]
    · by_cases e2 : r = q
      · subst e2
        refine .arrived _ ?_ (.request p so ro x hf e (by simp) ?_ ?_ (by simp))
        · rw [procs_note, (procs_two' hq).2]
        · rw [procs_note, (procs_two' hq).1]; exact ⟨_, rfl⟩
        · rw [procs_note, (procs_two' hq).1]
      · refine .idle ?_
        rw [procs_note, deliver_other _ e2]
        exact set_other _ e
  | connected p i c pre post ha hc hi =>
    by_cases e : r = p
    · subst e; exact .connected i c pre post hc hi (by rw [procs_note, procs_set_self]) (by simp)
    · exact .idle (by rw [procs_note, set_other _ e])
  | sent p d x ro v hf ht hd hn hu =>
    have hne := h.peer_ne ht
    by_cases e : r = p
    · subst e
      refine .sent d.toNat x ro v hf ht hd hn ?_ (by simp)
      rw [procs_note, (procs_two hne).1]
    · by_cases e2 : r = v.peer
      · subst e2
        refine .arrived _ ?_ (.data p v (if ro then Duplex.send else .receive) x hf (mem_of_idx ht) hd rfl hn (by simp))
        rw [procs_note, (procs_two hne).2]
      · exact .idle (by rw [procs_note, deliver_other _ e2, set_other _ e])
  | ended a p d v m pre post hact hf ht hi hm hp =>
    by_cases e : r = p
    · subst e; exact .ended d.toNat v m pre post hf ht hi hm hp (by rw [procs_note, procs_set_self]; rfl) (by simp)
    · exact .idle (by rw [procs_note, set_other _ e])
  | lost p d a v hact hf ht hu =>
    by_cases e : r = p
    · subst e; exact .lost d.toNat v hf ht (by rw [procs_note, procs_set_self]) (by simp)
    · exact .idle (by rw [procs_note, set_other _ e])
  | got p d nb v dx u x pre post hf ht hd hi hp hn =>
    by_cases e : r = p
    · subst e; exact .got d.toNat v dx u x pre post hf ht hd hi hp (by rw [procs_note, procs_set_self]) (by simp)
    · exact .idle (by rw [procs_note, set_other _ e])
  | disconnected p d v hf ht hv hu =>
    have hne := h.peer_ne ht
    by_cases e : r = p
    · subst e
      refine .disconnected d.toNat v hf ht hv ?_ (by simp)
      rw [procs_note, (procs_two hne).1]
    · by_cases e2 : r = v.peer
      · subst e2
        refine .arrived _ ?_ (.disconnect p v hf (mem_of_idx ht) hv rfl (by simp))
        rw [procs_note, (procs_two hne).2]
      · exact .idle (by rw [procs_note, deliver_other _ e2, set_other _ e])
  | returned q f success user x transOk v hf hfr hu hl =>
    have hne := h.frame_ne hfr
    by_cases e : r = q
    · subst e; exact .returned f success user x transOk v hf hfr hl (procs_set_self _ _ _) (by simp)
    · by_cases e2 : r = f.peer
      · subst e2
        refine .arrived _ ?_ (.returned q f success user x transOk hfr (by simp))
        rw [set_other _ e, procs_note, deliver_self]
      · exact .idle (by rw [set_other _ e, procs_note, deliver_other _ e2])
  | thrown q f success user x transOk hf hfr hu hl =>
    by_cases e : r = q
    · subst e; exact .gone (w.procs r).inbox (List.Sublist.refl _) (by rw [procs_note, procs_set_self])
    · by_cases e2 : r = f.peer
      · subst e2
        refine .arrived _ ?_ (.returned q f success user x transOk hfr (by simp))
        rw [procs_note, set_other _ e, procs_note, deliver_self]
      · exact .idle (by rw [procs_note, set_other _ e, procs_note, deliver_other _ e2])
  | unheard q f success user x transOk hf hfr hu =>
    by_cases e : r = q
    · subst e; exact .gone (w.procs r).inbox (List.Sublist.refl _) (by rw [procs_note, procs_set_self])
    · exact .idle (by rw [procs_note, set_other _ e])
  | died p =>
    by_cases e : r = p
    · subst e; exact .gone (w.procs r).inbox (List.Sublist.refl _) (procs_set_self _ _ _)
    · exact .idle (set_other _ e)
  | reported c k hk =>
    by_cases e : r = k.initiator
    · subst e
      exact .arrived _ (by rw [procs_note, deliver_self]) (.service c (by simp))
    · exact .idle (by rw [procs_note, deliver_other _ e])

end Casual.Conv
