import Verif.Conv.Loc
/-!
What a step adds to the log, and where messages come from.
-/
namespace Casual.Conv

/-- Why an entry is in the log. -/
inductive New (srv : Nat → Bool) (w w' : World) : Entry → Prop
  | asked (p q : Nat) (ro : Bool) (x : Nat) (hk : w'.convs = w.convs ++ [(⟨p, q⟩ : Parties)]) :
    New srv w w' (.asked w.convs.length ro x)
  | started (q c src : Nat) (dx : Duplex) (x : Nat) (rest : List Msg) (hi : (w.procs q).inbox = .request c src dx x :: rest)
    (hi' : (w'.procs q).inbox = rest) :
    New srv w w' (.started c (dx == .send) x)
  | connected (p i c : Nat) (hc : (w.procs p).calling = some (i, c)) (hi : .reply c ∈ (w.procs p).inbox) :
    New srv w w' (.connected c i)
  | sent (p : Nat) (v : Val) (x : Nat) (hf : (w.procs p).free (srv p) = true) (ht : some v ∈ (w.procs p).table)
    (hd : v.duplex = .send) : New srv w w' (.sent p v.corr x)
  | got (p : Nat) (v : Val) (x : Nat) (b : Bool) (hf : (w.procs p).free (srv p) = true)
    (ht : some v ∈ (w.procs p).table) (hd : v.duplex = .receive) :
    New srv w w' (.got p v.corr x b)
  | ended (p i : Nat) (v : Val) (m : Msg) (hf : (w.procs p).free (srv p) = true)
    (ht : (w.procs p).table[i]? = some (some v)) (hi : m ∈ (w.procs p).inbox) (hm : isConversation v.corr m = true)
    (hn : v.duplex = .receive → ∀ c dx u x, m ≠ .data c dx .absent u x)
    (hp : (w'.procs p).table = close (w.procs p).table i)
    (hq : (w'.procs p).inbox.countP (isRequest v.corr) ≤ (w.procs p).inbox.countP (isRequest v.corr)) :
    New srv w w' (.ended p v.corr (endOf v.duplex m).1 (endOf v.duplex m).2.1 (endOf v.duplex m).2.2)
  | lost (p i : Nat) (v : Val) (hf : (w.procs p).free (srv p) = true)
    (ht : (w.procs p).table[i]? = some (some v)) 
    (hp : (w'.procs p).table = close (w.procs p).table i)
    (hq : (w'.procs p).inbox = (w.procs p).inbox) :
    New srv w w' (.lost p v.corr)
  | disconnected (p i : Nat) (v : Val) (hf : (w.procs p).free (srv p) = true)
    (ht : (w.procs p).table[i]? = some (some v)) (hi : v.initiator = true) :
    New srv w w' (.disconnected v.corr)
  | returned (q : Nat) (f : Frame) (success : Bool) (user : Int) (x : Nat) (transOk : Bool)
    (hfr : (w.procs q).frame = some f) (hf : (w.procs q).free (srv q) = true) :
    New srv w w' (.returned f.corr success user x transOk)
  | failed (q c src : Nat) (dx : Duplex) (x : Nat) (hi : .request c src dx x ∈ (w.procs q).inbox) :
    New srv w w' (.failed c)
  | reported (c : Nat) : New srv w w' (.reported c)
  | exited (p : Nat) : New srv w w' (.exited p)

/-- How the log grows. -/
inductive Grow (srv : Nat → Bool) (w w' : World) : Prop
  | none (h : w'.log = w.log)
  | one (e : Entry) (h : w'.log = e :: w.log) (hn : New srv w w' e)
  | exit (q : Nat) (e : Entry) (h : w'.log = .exited q :: e :: w.log) (hn : New srv w w' e)
    (he : (∃ c, e = .failed c) ∨ ∃ c s u x t, e = .returned c s u x t)

theorem Move.grow {srv : Nat → Bool} {w w' : World} {a : Act} (h : Home w) (hm : Move srv w a w') : Grow srv w w' := by
  cases hm with
  | same => exact .none rfl
  | drop => exact .none rfl
  | begin => exact .none rfl
  | finish => exact .none rfl
  | refused => exact .none rfl
  | died => exact .none rfl
  | started q c src dx x rest hs ha hb hc hi hu =>
    have hne := h.request_ne (p := q) (by rw [hi]; exact List.mem_cons_self)
    refine .one _ (by simp only [log_note, log_deliver, log_set]; rfl) ?_
    exact .started q c src dx x rest hi (by rw [procs_note, deliver_other _ (fun e => hne e.symm), procs_set_self])
  | orphan q c src dx x rest hs ha hb hi hu =>
    exact .exit q (.failed c) (by simp only [log_note, log_set])
      (.failed q c src dx x (by rw [hi]; exact List.mem_cons_self)) (Or.inl ⟨_, rfl⟩)
  | failed q c src dx x rest hs ha hb hi =>
    exact .exit q (.failed c) (by simp only [log_note, log_deliver, log_set])
      (.failed q c src dx x (by rw [hi]; exact List.mem_cons_self)) (Or.inl ⟨_, rfl⟩)
  | asked p q so ro x hf hq hu hx =>
    exact .one _ (by simp only [log_note, log_deliver, log_set]) (.asked p q ro x (by simp))
  | connected p i c pre post ha hc hi =>
    exact .one _ (by simp only [log_note, log_set]) (.connected p i c hc (by rw [hi]; simp))
  | sent p d x ro v hf ht hd hn hu =>
    exact .one _ (by simp only [log_note, log_deliver, log_set]) (.sent p v x hf (mem_of_idx ht) hd)
  | ended a p d v m pre post hact hf ht hi hm hp =>
    refine .one _ (by simp only [log_note, log_set]; rfl) ?_
    refine .ended p d.toNat v m hf ht (by rw [hi]; simp) hm ?_ (by rw [procs_note, procs_set_self]; rfl) ?_
    · intro hd c dx u x e
      rcases hp with hp | ⟨_, hp⟩
      · rw [hp] at e; cases e
      · exact hp hd c dx u x e
    · rw [procs_note, procs_set_self, hi, countP_mid]
      exact Nat.le_add_right _ _
  | lost p d a v hact hf ht hu =>
    exact .one _ (by simp only [log_note, log_set])
      (.lost p d.toNat v hf ht (by rw [procs_note, procs_set_self]) (by rw [procs_note, procs_set_self]))
  | got p d nb v dx u x pre post hf ht hd hi hp hn =>
    exact .one _ (by simp only [log_note, log_set]; rfl) (.got p v x _ hf (mem_of_idx ht) hd)
  | disconnected p d v hf ht hv hu =>
    exact .one _ (by simp only [log_note, log_deliver, log_set]) (.disconnected p d.toNat v hf ht hv)
  | returned q f success user x transOk v hf hfr hu hl =>
    exact .one _ (by simp only [log_note, log_deliver, log_set]) (.returned q f success user x transOk hfr hf)
  | thrown q f success user x transOk hf hfr hu hl =>
    exact .exit q _ (by simp only [log_note, log_deliver, log_set]) (.returned q f success user x transOk hfr hf)
      (Or.inr ⟨_, _, _, _, _, rfl⟩)
  | unheard q f success user x transOk hf hfr hu =>
    exact .one _ (by simp only [log_note, log_set]) (.exited q)
  | reported c k hk =>
    exact .one _ (by simp only [log_note, log_deliver]) (.reported c)

theorem Move.entry {srv : Nat → Bool} {w w' : World} {a : Act} (h : Home w) (hm : Move srv w a w') {e : Entry}
    (he : e ∈ w'.log) : e ∈ w.log ∨ New srv w w' e := by
  cases hm.grow h with
  | none h => rw [h] at he; exact Or.inl he
  | one e' h hn =>
    rw [h] at he
    rcases List.mem_cons.1 he with rfl | he
    · exact Or.inr hn
    · exact Or.inl he
  | exit q e' h hn _ =>
    rw [h] at he
    rcases List.mem_cons.1 he with rfl | he
    · exact Or.inr (.exited q)
    rcases List.mem_cons.1 he with rfl | he
    · exact Or.inr hn
    · exact Or.inl he

theorem Move.keep {srv : Nat → Bool} {w w' : World} {a : Act} (hm : Move srv w a w') {e : Entry} (he : e ∈ w.log) :
    e ∈ w'.log := by
  obtain ⟨es, h⟩ := hm.log
  rw [h]
  exact List.mem_append_right _ he

/-- The inbox is what it was, without some messages, or with one more. -/
theorem Loc.inbox {srv : Nat → Bool} {w w' : World} {r : Nat} (h : Loc srv w w' r) :
    (w'.procs r).inbox.Sublist (w.procs r).inbox ∨
      ∃ m, (w'.procs r).inbox = (w.procs r).inbox ++ [m] ∧ Sent srv w w' r m := by
  cases h with
  | idle h => left; rw [h]; exact List.Sublist.refl _
  | arrived m h hs =>
    rw [h]
    rcases arrive_inbox (w.procs r) m with e | ⟨e, _⟩
    · left; rw [e]; exact List.Sublist.refl _
    · right; exact ⟨m, e, hs⟩
  | dropped m rest hs ha hb hc hi hm h => left; rw [h, hi]; exact List.sublist_cons_self _ _
  | began c src dx x rest hs ha hb hc hi hsrc h => left; rw [h, hi]; exact List.sublist_cons_self _ _
  | gone ib hs h => left; rw [h]; exact hs
  | worked b hb hb' h => left; rw [h]; exact List.Sublist.refl _
  | refused t ht h => left; rw [h]; exact List.Sublist.refl _
  | asked q ro x hf hq h => left; rw [h]; exact List.Sublist.refl _
  | connected i c pre post hc hi h =>
    left; rw [h, hi]; exact List.Sublist.append (List.Sublist.refl _) (List.sublist_cons_self _ _)
  | sent i x ro v hf ht hd hn h => left; rw [h]; exact List.Sublist.refl _
  | ended i v m pre post hf ht hi hm hp h =>
    left; rw [h, hi]; exact List.Sublist.append (List.Sublist.refl _) (List.sublist_cons_self _ _)
  | lost i v hf ht h => left; rw [h]; exact List.Sublist.refl _
  | got i v dx u x pre post hf ht hd hi hp h =>
    left; rw [h, hi]; exact List.Sublist.append (List.Sublist.refl _) (List.sublist_cons_self _ _)
  | disconnected i v hf ht hv h =>
    left; rw [h]
    split
    · rcases discard_inbox { (w.procs r) with table := close (w.procs r).table i } v.corr with e | ⟨pre, m0, post, e1, _, e2⟩
      · rw [e]; exact List.Sublist.refl _
      · rw [e2]
        have e1 : (w.procs r).inbox = pre ++ m0 :: post := e1
        rw [e1]; exact List.Sublist.append (List.Sublist.refl _) (List.sublist_cons_self _ _)
    · exact List.Sublist.refl _
  | returned f success user x transOk v hf hfr ht h => left; rw [h]; exact List.Sublist.refl _

theorem Loc.mem {srv : Nat → Bool} {w w' : World} {r : Nat} (h : Loc srv w w' r) {m : Msg} (hm : m ∈ (w'.procs r).inbox) :
    m ∈ (w.procs r).inbox ∨ Sent srv w w' r m := by
  rcases h.inbox with h | ⟨m', h, hs⟩
  · exact Or.inl (h.mem hm)
  · rw [h] at hm
    rcases List.mem_append.1 hm with hm | hm
    · exact Or.inl hm
    · rw [List.mem_singleton] at hm; subst hm; exact Or.inr hs

/-- What has happened, when the message is there. -/
def Just (log : List Entry) : Msg → Prop
  | .request c _ dx x => .asked c (dx == .send) x ∈ log
  | .reply c => ∃ b x, .started c b x ∈ log
  | .data _ _ .absent _ _ => True
  | .data c _ .ok u x => .returned c true u x true ∈ log
  | .data c _ .fail u x => ∃ t, .returned c false u x t ∈ log
  | .data c _ .error u x => .failed c ∈ log ∨ .returned c true u x false ∈ log
  | .disconnect c => .disconnected c ∈ log
  | .service c => .reported c ∈ log

theorem Just.mono {l l' : List Entry} (h : ∀ e ∈ l, e ∈ l') {m : Msg} (hm : Just l m) : Just l' m := by
  cases m with
  | request c s dx x => exact h _ hm
  | reply c => obtain ⟨b, x, hm⟩ := hm; exact ⟨b, x, h _ hm⟩
  | data c dx code u x =>
    cases code with
    | absent => trivial
    | ok => exact h _ hm
    | fail => obtain ⟨t, hm⟩ := hm; exact ⟨t, h _ hm⟩
    | error => rcases hm with hm | hm; exact Or.inl (h _ hm); exact Or.inr (h _ hm)
  | disconnect c => exact h _ hm
  | service c => exact h _ hm

theorem Sent.just {srv : Nat → Bool} {w w' : World} {r : Nat} {m : Msg} (h : Sent srv w w' r m) : Just w'.log m := by
  cases h with
  | request p so ro x hf hr hk hc hi hl => rw [hl]; cases ro <;> simp [Just]
  | reply q c dx x rest hi hi' hq hl => rw [hl]; exact ⟨_, _, List.mem_cons_self⟩
  | data p v dx x hf ht hd hv hn hl => trivial
  | failed c q hl => rw [hl]; left; simp
  | returned q f success user x transOk hfr hl =>
    cases success <;> cases transOk <;> simp only [replyCode, Just]
    · exact ⟨_, hl⟩
    · exact ⟨_, hl⟩
    · exact Or.inr hl
    · exact hl
  | disconnect p v hf ht hi hv hl => rw [hl]; exact List.mem_cons_self
  | service c hl => rw [hl]; exact List.mem_cons_self

def Src (w : World) : Prop := ∀ r m, m ∈ (w.procs r).inbox → Just w.log m

theorem Src.move {srv : Nat → Bool} {w w' : World} {a : Act} (h : Src w) (hh : Home w) (hm : Move srv w a w') : Src w' := by
  intro r m hmem
  rcases (hm.loc hh r).mem hmem with h' | h'
  · exact (h r m h').mono (fun e he => hm.keep he)
  · exact h'.just

end Casual.Conv
