import Verif.Conv.Props
/-!
When `tpconnect` returns, when a server goes on after a conversation, and what goes wrong.
-/
namespace Casual.Conv

theorem run_append (srv : Nat → Bool) (as bs : List Act) : run srv (as ++ bs) = bs.foldl (step srv) (run srv as) := by
  unfold run; rw [List.foldl_append]

/-- Something that every step keeps. -/
theorem run_keeps (srv : Nat → Bool) {P : World → Prop} (hP : ∀ w w' a, All w → Move srv w a w' → P w → P w')
    (as : List Act) (h : P (run srv as)) (bs : List Act) : P (run srv (as ++ bs)) := by
  rw [run_append]
  have : ∀ (bs : List Act) (w : World), All w → P w → P (bs.foldl (step srv) w) := by
    intro bs
    induction bs with
    | nil => intro w _ h; exact h
    | cons b bs ih => intro w hA h; exact ih _ (hA.step b) (hP _ _ _ hA (step_move srv w b) h)
  exact this bs _ (All.run srv as) h

/-! ### C193 tpconnect returns -/

/-- Within `tpconnect` the descriptor is open. -/
def CallOpen (w : World) : Prop :=
  ∀ r i c, (w.procs r).calling = some (i, c) → ∃ v, (w.procs r).table[i]? = some (some v) ∧ v.corr = c

theorem CallOpen.move {srv : Nat → Bool} {w w' : World} {a : Act} (h : CallOpen w) (hA : All w) (hm : Move srv w a w') :
    CallOpen w' := by
  intro r i c hc
  have hl := hm.loc hA.inv.home r
  rcases hl.calling' hc with hc0 | ⟨_, h'⟩
  · obtain ⟨v, hv, hvc⟩ := h r i c hc0
    cases hl with
    | idle h => rw [h]; exact ⟨v, hv, hvc⟩
    | arrived m h hs => rw [h, arrive_table]; exact ⟨v, hv, hvc⟩
    | disconnected j v hf ht hv h => rw [(calling_free hf).1] at hc0; cases hc0
    | gone ib hs h => rw [h]; exact ⟨v, hv, hvc⟩
    | dropped m rest hs ha hb hc' hi hm h => rw [h]; exact ⟨v, hv, hvc⟩
    | began c' src dx x rest hs ha hb hc' hi hsrc h => rw [hc'] at hc0; cases hc0
    | worked b hb hb' h => rw [h]; exact ⟨v, hv, hvc⟩
    | refused t ht h =>
      rw [h]
      rcases ht with ht | ht
      · rw [ht]; exact ⟨v, hv, hvc⟩
      · rw [ht]
        refine ⟨v, ?_, hvc⟩
        show ((w.procs r).table ++ [none])[i]? = _
        rw [List.getElem?_append_left (List.getElem?_eq_some_iff.1 hv).1]; exact hv
    | asked q ro x hf hq h => rw [(calling_free hf).1] at hc0; cases hc0
    | connected j c' pre post hc' hi h => rw [h] at hc; cases hc
    | sent j x ro v hf ht hd hn h => rw [(calling_free hf).1] at hc0; cases hc0
    | ended j v m pre post hf ht hi hm hp h => rw [(calling_free hf).1] at hc0; cases hc0
    | lost j v hf ht h => rw [(calling_free hf).1] at hc0; cases hc0
    | got j v dx u x pre post hf ht hd hi hp h => rw [(calling_free hf).1] at hc0; cases hc0
    | returned f success user x transOk v hf hfr ht h => rw [(calling_free hf).1] at hc0; cases hc0
  · exact h'

/-- When the service has been called the reply is there. -/
def Replied (w : World) : Prop :=
  ∀ r i c b x, (w.procs r).calling = some (i, c) → (w.procs r).alive = true → .started c b x ∈ w.log →
    .reply c ∈ (w.procs r).inbox

theorem Replied.move {srv : Nat → Bool} {w w' : World} {a : Act} (h : Replied w) (hco : CallOpen w) (hA : All w)
    (hm : Move srv w a w') : Replied w' := by
  intro r i c b x hc ha hst
  have hl := hm.loc hA.inv.home r
  have ha0 := hl.alive ha
  rcases hl.calling' hc with hc0 | ⟨hlen, v, hv, hvc⟩
  · by_cases hst0 : Entry.started c b x ∈ w.log
    · have hin := h r i c b x hc0 ha0 hst0
      cases hl with
      | idle h => rw [h]; exact hin
      | arrived m h hs =>
        rw [h]
        rcases arrive_inbox (w.procs r) m with e | ⟨e, _⟩
        · rw [e]; exact hin
        · rw [e]; exact List.mem_append_left _ hin
      | disconnected j v hf ht hv h => rw [(calling_free hf).1] at hc0; cases hc0
      | gone ib hs h => rw [h] at ha; cases ha
      | dropped m rest hs ha hb hc' hi hm h => rw [hc'] at hc0; cases hc0
      | began c' src dx x rest hs ha hb hc' hi hsrc h => rw [hc'] at hc0; cases hc0
      | worked b hb hb' h => rw [h]; exact hin
      | refused t ht h => rw [h]; exact hin
      | asked q ro x hf hq h => rw [(calling_free hf).1] at hc0; cases hc0
      | connected j c' pre post hc' hi h => rw [h] at hc; cases hc
      | sent j x ro v hf ht hd hn h => rw [(calling_free hf).1] at hc0; cases hc0
      | ended j v m pre post hf ht hi hm hp h => rw [(calling_free hf).1] at hc0; cases hc0
      | lost j v hf ht h => rw [(calling_free hf).1] at hc0; cases hc0
      | got j v dx u x pre post hf ht hd hi hp h => rw [(calling_free hf).1] at hc0; cases hc0
      | returned f success user x transOk v hf hfr ht h => rw [(calling_free hf).1] at hc0; cases hc0
    · obtain ⟨k, hk, hr⟩ := hA.desc.call r i c hc0
      obtain ⟨v, hv, hvc⟩ := hco r i c hc0
      have hdc : c ∉ (w.procs r).discarded := by
        intro hd
        have h1 := (hA.disc r c hd).1
        have h2 := open_places (mem_of_idx hv)
        rw [hvc] at h2
        omega
      have hcase : ∃ q c' src dx y rest, Entry.started c b x = .started c' (dx == .send) y ∧
          (w.procs q).inbox = .request c' src dx y :: rest ∧ (src ≠ q) ∧
          (w'.procs src) = arrive (w.procs src) (.reply c') := by
        cases hm with
        | started q c' src dx y rest hs ha' hb hc' hi hu =>
          simp only [log_note, log_deliver, log_set, List.mem_cons] at hst
          rcases hst with hst | hst
          · have hne := hA.inv.home.request_ne (p := q) (by rw [hi]; exact List.mem_cons_self)
            exact ⟨q, c', src, dx, y, rest, hst, hi, hne, by rw [procs_note, deliver_self, set_other _ hne]⟩
          · exact absurd hst hst0
        | same => exact absurd hst hst0
        | drop => exact absurd hst hst0
        | begin => exact absurd hst hst0
        | finish => exact absurd hst hst0
        | refused => exact absurd hst hst0
        | died => exact absurd hst hst0
        | _ => simp [hst0] at hst
      obtain ⟨q, c', src, dx, y, rest, he, hi, hne, hp⟩ := hcase
      simp only [Entry.started.injEq] at he
      obtain ⟨rfl, _, _⟩ := he
      obtain ⟨k2, hk2, h1, h2, _⟩ := hA.inv.home.msg q (.request c src dx y) (by rw [hi]; exact List.mem_cons_self)
      have hk2 : w.convs[c]? = some k2 := hk2
      rw [hk] at hk2
      simp only [Option.some.injEq] at hk2
      subst hk2
      have : src = r := by rw [h2, hr]
      subst this
      rw [hp, arrive_here ha0 (by exact hdc)]
      simp
  · exfalso
    subst hlen
    obtain ⟨k, hk1, _⟩ := (hA.inv.home.move hm).tab r v (mem_of_idx hv)
    rw [hvc] at hk1
    obtain ⟨ro, y, h'⟩ := hm.fresh_log hA.inv.home hA.known hst rfl (lt_of_some hk1)
    cases h'

theorem run_replied (srv : Nat → Bool) (as : List Act) : CallOpen (run srv as) ∧ Replied (run srv as) := by
  have := run_keeps srv (P := fun w => CallOpen w ∧ Replied w)
    (fun w w' a hA hm h => ⟨h.1.move hA hm, h.2.move h.1 hA hm⟩) []
    ⟨by intro r i c h; (cases h), by intro r i c b x h; (cases h)⟩ as
  simpa using this

/-- `tpconnect` of the conversation `c` has been called in `p`, and has not returned. -/
def Connecting (w : World) (p c : Nat) : Prop := ∃ d, (w.procs p).calling = some (d, c)

/-- `tpconnect` returns when the service has been called. -/
theorem conv_connect_returns_partial (srv : Nat → Bool) (as : List Act) (p c : Nat) (b : Bool) (x : Nat)
    (hc : Connecting (run srv as) p c) (ha : ((run srv as).procs p).alive = true)
    (hs : .started c b x ∈ (run srv as).log) :
    ∃ d, .connected c d ∈ (run srv (as ++ [.connected p])).log ∧ ¬ Connecting (run srv (as ++ [.connected p])) p c := by
  obtain ⟨d, hc⟩ := hc
  have hr := (run_replied srv as).2 p d c b x hc ha hs
  obtain ⟨m, rest, ht⟩ := takeFirst_mem (f := isReply c) hr (by simp [isReply])
  rw [run_snoc]
  have e : connected ((run srv as).procs p) = ({ (run srv as).procs p with inbox := rest, calling := none }, .descriptor d) := by
    unfold connected; rw [hc]; simp only [ht]
  have e2 : step srv (run srv as) (.connected p) =
      ((run srv as).set p { (run srv as).procs p with inbox := rest, calling := none }).note (.connected c d) := by
    unfold step
    simp only [ha, if_true, e, hc]
  rw [e2]
  refine ⟨d, by simp, ?_⟩
  rintro ⟨d', h'⟩
  rw [procs_note, procs_set_self] at h'
  cases h'

/-- The request is gone, and the service has not been called. -/
def NoReply (c : Nat) (w : World) : Prop :=
  (∀ r s dx x, .request c s dx x ∉ (w.procs r).inbox) ∧ (∀ b x, .started c b x ∉ w.log) ∧ c < w.convs.length

theorem NoReply.move {srv : Nat → Bool} {w w' : World} {a : Act} {c : Nat} (h : NoReply c w) (hA : All w) (hm : Move srv w a w') :
    NoReply c w' := by
  obtain ⟨h1, h2, h3⟩ := h
  refine ⟨?_, ?_, Nat.lt_of_lt_of_le h3 hm.length⟩
  · intro r s dx x hr
    rcases (hm.loc hA.inv.home r).mem hr with hr | hr
    · exact h1 r s dx x hr
    · cases hr with
      | request => exact absurd h3 (Nat.lt_irrefl _)
  · intro b x hst
    rcases hm.entry hA.inv.home hst with hst | hst
    · exact h2 b x hst
    · cases hst with
      | started q _ src dx _ rest hi hi' => exact h1 q src dx x (by rw [hi]; exact List.mem_cons_self)

/-- When the request has been lost `tpconnect` never returns, whatever happens. -/
theorem conv_connect_hangs (srv : Nat → Bool) (as : List Act) (p c : Nat) (hc : Connecting (run srv as) p c)
    (hn : NoReply c (run srv as)) (bs : List Act) : Connecting (run srv (as ++ bs)) p c := by
  have := run_keeps srv (P := fun w => NoReply c w ∧ Connecting w p c) (by
    rintro w w' a hA hm ⟨h1, d, h2⟩
    refine ⟨h1.move hA hm, d, ?_⟩
    rcases (hm.loc hA.inv.home p).calling h2 with h | h
    · exact h
    · obtain ⟨b, x, hst⟩ := hA.src p _ h
      exact absurd hst (h1.2.1 b x)) as ⟨hn, hc⟩ bs
  exact this.2

def server1 : Nat → Bool := fun p => p == 1

def hangs : List Act := [.connect 0 (some 1) true false 7, .pump 1 false]
def dies : List Act := [.connect 0 (some 1) true false 7, .die 1, .report 0]

theorem noreply_of {w : World} {c : Nat} {bound : Nat} (hb : ∀ r, bound ≤ r → (w.procs r).inbox = [])
    (h1 : ∀ r, r < bound → (w.procs r).inbox.all (fun m => !isRequest c m) = true)
    (h2 : w.log.all (fun e => match e with | .started c' _ _ => c' != c | _ => true) = true)
    (h3 : c < w.convs.length) : NoReply c w := by
  refine ⟨?_, ?_, h3⟩
  · intro r s dx x hr
    by_cases h : r < bound
    · have := List.all_eq_true.1 (h1 r h) _ hr
      simp [isRequest] at this
    · rw [hb r (by omega)] at hr; cases hr
  · intro b x hst
    have := List.all_eq_true.1 h2 _ hst
    simp at this

/-- "`tpconnect` returns": it does not, when the service could not be called. The error that the server sends is not looked at: the
initiator waits only for the reply of the connect. -/
theorem conv_connect_returns_refuted : ∃ (srv : Nat → Bool) (as : List Act) (p c : Nat),
    ((run srv as).procs p).alive = true ∧ .failed c ∈ (run srv as).log ∧ (∃ m ∈ ((run srv as).procs p).inbox, isEnd c m) ∧
    ∀ bs, Connecting (run srv (as ++ bs)) p c := by
  refine ⟨server1, hangs, 0, 0, by decide +kernel, by decide +kernel,
    ⟨.data 0 .send .error 0 0, by decide +kernel, by simp [isConversation], by simp⟩, ?_⟩
  apply conv_connect_hangs
  · exact ⟨0, by decide +kernel⟩
  · refine noreply_of (bound := 2) ?_ (by decide +kernel) (by decide +kernel) (by decide +kernel)
    intro r hr
    simp [run, hangs, step, server1, Proc.free, connect, World.set, World.deliver, World.note, World.up, reserve, serve]
    have h0 : r ≠ 0 := by omega
    have h1 : r ≠ 1 := by omega
    simp [h0, h1]

/-- The same when the server dies with the request, although the service manager tells it. -/
theorem conv_connect_dead_refuted : ∃ (srv : Nat → Bool) (as : List Act) (p c : Nat),
    ((run srv as).procs p).alive = true ∧ .reported c ∈ (run srv as).log ∧ (∃ m ∈ ((run srv as).procs p).inbox, isEnd c m) ∧
    ((run srv as).procs 1).alive = false ∧ ∀ bs, ¬ ∃ d, .connected c d ∈ (run srv (as ++ bs)).log := by
  refine ⟨server1, dies, 0, 0, by decide +kernel, by decide +kernel,
    ⟨.service 0, by decide +kernel, by simp [isConversation], by simp⟩, by decide +kernel, ?_⟩
  intro bs
  have hk := run_keeps server1 (P := fun w => (w.procs 1).alive = false ∧ (∀ b x, .started 0 b x ∉ w.log) ∧
      w.convs[0]? = some ⟨0, 1⟩) (by
    rintro w w' a hA hm ⟨h1, h2, h3⟩
    refine ⟨?_, ?_, ?_⟩
    · cases h : (w'.procs 1).alive with
      | false => rfl
      | true => rw [(hm.loc hA.inv.home 1).alive h] at h1; cases h1
    · intro b x hst
      by_cases hold : Entry.started 0 b x ∈ w.log
      · exact h2 b x hold
      · cases hm with
        | started q c' src dx y rest hs ha' hb hc' hi hu =>
          simp only [log_note, log_deliver, log_set, List.mem_cons] at hst
          rcases hst with hst | hst
          · simp only [Entry.started.injEq] at hst
            obtain ⟨rfl, _⟩ := hst
            obtain ⟨k, hk, hq, _⟩ := hA.inv.home.msg q (.request 0 src dx y) (by rw [hi]; exact List.mem_cons_self)
            have hk : w.convs[0]? = some k := hk
            rw [h3] at hk
            simp only [Option.some.injEq] at hk
            subst hk
            rw [hq, h1] at ha'
            cases ha'
          · exact hold hst
        | same => exact hold hst
        | drop => exact hold hst
        | begin => exact hold hst
        | finish => exact hold hst
        | refused => exact hold hst
        | died => exact hold hst
        | _ => simp [hold] at hst
    · rcases hm.convs with e | ⟨k', e⟩
      · rw [e]; exact h3
      · rw [e, List.getElem?_append_left (lt_of_some h3)]; exact h3)
    dies ⟨by decide +kernel, by
      intro b x h
      have h2 : (run server1 dies).log.all (fun e => match e with | .started _ _ _ => false | _ => true) = true := by decide +kernel
      have := List.all_eq_true.1 h2 _ h
      simp at this, by decide +kernel⟩ bs
  rintro ⟨d, hd⟩
  obtain ⟨b, x, hst⟩ := (All.run server1 (dies ++ bs)).start.conn 0 d hd
  exact hk.2.1 b x hst

/-! ### C194 the server goes on -/

/-- The descriptor of the service that is executed is open, unless the conversation has ended for it. -/
def FrameOpen (w : World) : Prop :=
  ∀ r f, (w.procs r).frame = some f →
    (∃ v, (w.procs r).table[f.desc]? = some (some v) ∧ v.corr = f.corr ∧ v.initiator = false) ∨
    ∃ e ∈ w.log, endsFor r f.corr e = true

theorem FrameOpen.move {srv : Nat → Bool} {w w' : World} {a : Act} (h : FrameOpen w) (hA : All w) (hm : Move srv w a w') :
    FrameOpen w' := by
  intro r f hf
  have hl := hm.loc hA.inv.home r
  have go : (w.procs r).frame = some f →
      (∀ v, (w.procs r).table[f.desc]? = some (some v) → v.corr = f.corr → v.initiator = false →
        (∃ v', (w'.procs r).table[f.desc]? = some (some v') ∧ v'.corr = f.corr ∧ v'.initiator = false) ∨
        ∃ e ∈ w'.log, endsFor r f.corr e = true) →
      (∃ v, (w'.procs r).table[f.desc]? = some (some v) ∧ v.corr = f.corr ∧ v.initiator = false) ∨
      ∃ e ∈ w'.log, endsFor r f.corr e = true := by
    intro hf0 hg
    rcases h r f hf0 with ⟨v, h1, h2, h3⟩ | ⟨e, h1, h2⟩
    · exact hg v h1 h2 h3
    · exact Or.inr ⟨e, hm.keep h1, h2⟩
  cases hl with
  | idle h => rw [h] at hf; exact go hf (fun v h1 h2 h3 => Or.inl ⟨v, by rw [h]; exact h1, h2, h3⟩)
  | arrived m h hs =>
    rw [h, arrive_frame] at hf
    exact go hf (fun v h1 h2 h3 => Or.inl ⟨v, by rw [h, arrive_table]; exact h1, h2, h3⟩)
  | disconnected j u hfr ht hu h =>
    have e1 : (w'.procs r).table = close (w.procs r).table j := by
      rw [h]; split
      · rw [discard_table]
      · rfl
    have e2 : (w'.procs r).frame = (w.procs r).frame := by
      rw [h]; split
      · rw [discard_frame]
      · rfl
    rw [e2] at hf
    refine go hf (fun v h1 h2 h3 => Or.inl ⟨v, ?_, h2, h3⟩)
    rw [e1, close_keep]
    · exact h1
    · intro e
      subst e
      rw [ht] at h1
      simp only [Option.some.injEq] at h1
      subst h1
      rw [hu] at h3
      cases h3
  | gone ib hs h => rw [h] at hf; exact go hf (fun v h1 h2 h3 => Or.inl ⟨v, by rw [h]; exact h1, h2, h3⟩)
  | dropped m rest hs ha hb hc' hi hm h => rw [h] at hf; exact go hf (fun v h1 h2 h3 => Or.inl ⟨v, by rw [h]; exact h1, h2, h3⟩)
  | began c' src dx x rest hs ha hb hc' hi hsrc h =>
    rw [h] at hf
    simp only [Option.some.injEq] at hf
    subst hf
    left
    rw [h]
    exact ⟨_, reserve_get _ _, rfl, rfl⟩
  | worked b hb hb' h => rw [h] at hf; exact go hf (fun v h1 h2 h3 => Or.inl ⟨v, by rw [h]; exact h1, h2, h3⟩)
  | refused t ht h =>
    rw [h] at hf
    refine go hf (fun v h1 h2 h3 => Or.inl ⟨v, ?_, h2, h3⟩)
    rw [h]
    rcases ht with ht | ht
    · rw [ht]; exact h1
    · rw [ht]
      show ((w.procs r).table ++ [none])[f.desc]? = _
      rw [List.getElem?_append_left (List.getElem?_eq_some_iff.1 h1).1]; exact h1
  | asked q ro x hfr hq h =>
    rw [h] at hf
    exact go hf (fun v h1 h2 h3 => Or.inl ⟨v, by rw [h]; exact reserve_keep h1, h2, h3⟩)
  | connected j c' pre post hc' hi h => rw [h] at hf; exact go hf (fun v h1 h2 h3 => Or.inl ⟨v, by rw [h]; exact h1, h2, h3⟩)
  | sent j x ro u hfr ht hd hn h =>
    rw [h] at hf
    refine go hf (fun v h1 h2 h3 => Or.inl ?_)
    rw [h]
    simp only [List.getElem?_set]
    split
    · rename_i e; subst e
      rw [ht] at h1
      simp only [Option.some.injEq] at h1
      subst h1
      rw [if_pos (List.getElem?_eq_some_iff.1 ht).1]
      exact ⟨_, rfl, h2, h3⟩
    · exact ⟨v, h1, h2, h3⟩
  | ended j u m pre post hfr ht hi hm hp h hlog =>
    rw [h] at hf
    refine go hf (fun v h1 h2 h3 => ?_)
    by_cases e : j = f.desc
    · subst e
      rw [ht] at h1
      simp only [Option.some.injEq] at h1
      subst h1
      right
      exact ⟨_, by rw [hlog]; exact List.mem_cons_self, by simp [endsFor, h2]⟩
    · left
      rw [h]
      simp only [close_keep e]
      exact ⟨v, h1, h2, h3⟩
  | lost j u hfr ht h hlog =>
    rw [h] at hf
    refine go hf (fun v h1 h2 h3 => ?_)
    by_cases e : j = f.desc
    · subst e
      rw [ht] at h1
      simp only [Option.some.injEq] at h1
      subst h1
      right
      exact ⟨_, by rw [hlog]; exact List.mem_cons_self, by simp [endsFor, h2]⟩
    · left
      rw [h]
      simp only [close_keep e]
      exact ⟨v, h1, h2, h3⟩
  | got j u dx n x pre post hfr ht hd hi hp h =>
    rw [h] at hf
    refine go hf (fun v h1 h2 h3 => Or.inl ?_)
    rw [h]
    simp only [List.getElem?_set]
    split
    · rename_i e; subst e
      rw [ht] at h1
      simp only [Option.some.injEq] at h1
      subst h1
      rw [if_pos (List.getElem?_eq_some_iff.1 ht).1]
      exact ⟨_, rfl, h2, h3⟩
    · exact ⟨v, h1, h2, h3⟩
  | returned f' success user x transOk u hfr hfr' ht h => rw [h] at hf; cases hf

theorem run_frameOpen (srv : Nat → Bool) (as : List Act) : FrameOpen (run srv as) := by
  have := run_keeps srv (P := FrameOpen) (fun w w' a hA hm h => h.move hA hm) [] (by intro r f h; cases h) as
  simpa using this

/-- The server `q` executes the service of the conversation `c`. -/
def Serving (w : World) (q c : Nat) : Prop := ∃ f, (w.procs q).frame = some f ∧ f.corr = c

/-- When the service returns before it has been told that the conversation has ended, and the initiator is there: the initiator gets
the reply, and the server waits for the next request. -/
theorem conv_server_goes_on_partial (srv : Nat → Bool) (as : List Act) (q c p : Nat) (s : Bool) (u : Int) (x : Nat) (t : Bool)
    (hs : Serving (run srv as) q c) (hf : ((run srv as).procs q).free (srv q) = true)
    (hp : IsInitiator (run srv as) p c) (hu : ((run srv as).procs p).alive = true)
    (hn : ∀ e ∈ (run srv as).log, (∀ ev u x, e ≠ .ended q c ev u x) ∧ e ≠ .lost q c) :
    ((run srv (as ++ [.ret q s u x t])).procs q).alive = true ∧
    ((run srv (as ++ [.ret q s u x t])).procs q).busy = false ∧
    ¬ Serving (run srv (as ++ [.ret q s u x t])) q c ∧
    .returned c s u x t ∈ (run srv (as ++ [.ret q s u x t])).log := by
  obtain ⟨f, hfr, rfl⟩ := hs
  obtain ⟨k, hk, rfl⟩ := hp
  obtain ⟨k', hk', h1, h2⟩ := (All.run srv as).inv.home.frm q f hfr
  rw [hk] at hk'
  simp only [Option.some.injEq] at hk'
  subst hk'
  have hup : (run srv as).up f.peer = true := by unfold World.up; rw [h2]; exact hu
  have hopen : (lookup ((run srv as).procs q).table (f.desc : Int)).isSome = true := by
    rcases run_frameOpen srv as q f hfr with ⟨v, h3, _⟩ | ⟨e, he, hends⟩
    · rw [lookup_ofNat h3]; rfl
    · exfalso
      have := hn e he
      cases e <;> simp [endsFor] at hends
      · obtain ⟨rfl, rfl⟩ := hends; exact this.1 _ _ _ rfl
      · obtain ⟨rfl, rfl⟩ := hends; exact this.2 rfl
  have e2 : step srv (run srv as) (.ret q s u x t) =
      (((run srv as).deliver f.peer (.data f.corr .terminated (replyCode s t) u x)).note (.returned f.corr s u x t)).set q
        { (run srv as).procs q with table := close ((run srv as).procs q).table f.desc, busy := false, frame := none } := by
    unfold step
    simp only [hf, if_true, hfr]
    unfold serviceReturn
    simp only [hup, if_true, hopen]
  rw [run_snoc, e2]
  refine ⟨?_, ?_, ?_, ?_⟩
  · rw [procs_set_self]; exact (calling_free hf).2
  · rw [procs_set_self]
  · rintro ⟨f', hf', _⟩
    rw [procs_set_self] at hf'
    cases hf'
  · simp

/-- The initiator disconnects, the service gets the event, and returns. -/
def exits : List Act :=
  [.connect 0 (some 1) true false 7, .pump 1 true, .connected 0, .disconnect 0 0, .recv 1 0 false, .ret 1 false 0 0 true]

/-- "A server goes on after a conversation": it does not, when the service has received `TPEV_DISCONIMM` and then returns. -/
theorem conv_server_goes_on_refuted : ∃ (srv : Nat → Bool) (as : List Act) (q c : Nat) (s : Bool) (u : Int) (x : Nat) (t : Bool),
    Serving (run srv as) q c ∧ ((run srv as).procs q).free (srv q) = true ∧
    .ended q c .disconnect 0 none ∈ (run srv as).log ∧
    .exited q ∈ (run srv (as ++ [.ret q s u x t])).log ∧
    ∀ bs, ((run srv (as ++ [.ret q s u x t] ++ bs)).procs q).alive = false := by
  refine ⟨server1, exits.take 5, 1, 0, false, 0, 0, true, ⟨⟨0, 0, 0⟩, by decide +kernel, rfl⟩, by decide +kernel,
    by decide +kernel, by decide +kernel, ?_⟩
  intro bs
  refine run_keeps server1 (P := fun w => (w.procs 1).alive = false) ?_ _ (by decide +kernel) bs
  intro w w' a hA hm h1
  cases h : (w'.procs 1).alive with
  | false => rfl
  | true => rw [(hm.loc hA.inv.home 1).alive h] at h1; cases h1

/-- Nor when the initiator has died. -/
theorem conv_server_goes_on_dead_refuted :
    .exited 1 ∈ (run server1 [.connect 0 (some 1) true false 7, .pump 1 true, .connected 0, .die 0, .ret 1 true 0 0 true]).log := by
  decide +kernel

/-! ### C195 the death of the other side -/

/-- The initiator is dead, and nothing is left of what it has sent. -/
def Silent (q c : Nat) (w : World) : Prop :=
  (∃ k, w.convs[c]? = some k ∧ q = k.subordinate ∧ (w.procs k.initiator).alive = false) ∧
    ∀ m ∈ (w.procs q).inbox, isConversation c m = false

theorem Silent.move {srv : Nat → Bool} {w w' : World} {a : Act} {q c : Nat} (h : Silent q c w) (hA : All w) (hm : Move srv w a w') :
    Silent q c w' := by
  obtain ⟨⟨k, hk, rfl, hd⟩, h2⟩ := h
  have hk' : w'.convs[c]? = some k := by
    rcases hm.convs with e | ⟨k', e⟩
    · rw [e]; exact hk
    · rw [e, List.getElem?_append_left (lt_of_some hk)]; exact hk
  have hne := hA.inv.home.par k (List.mem_of_getElem? hk)
  refine ⟨⟨k, hk', rfl, ?_⟩, ?_⟩
  · cases h : (w'.procs k.initiator).alive with
    | false => rfl
    | true => rw [(hm.loc hA.inv.home _).alive h] at hd; cases hd
  · intro m hmem
    rcases (hm.loc hA.inv.home _).mem hmem with h | h
    · exact h2 m h
    · cases hc : isConversation c m with
      | false => rfl
      | true =>
        exfalso
        obtain ⟨k2, hk2, hk3⟩ := (hA.inv.home.move hm).msg _ m hmem
        have hmc := isConversation_corr hc
        rw [hmc, hk'] at hk2
        simp only [Option.some.injEq] at hk2
        subst hk2
        have from_init : ∀ (p : Nat) (v : Val), some v ∈ (w.procs p).table → v.corr = c → v.peer = k.subordinate →
            (w.procs p).free (srv p) = true → False := by
          intro p v hv hvc hvp hf
          obtain ⟨k2, hk2, _, h3⟩ := hA.inv.home.tab p v hv
          rw [hvc, hk] at hk2
          simp only [Option.some.injEq] at hk2
          subst hk2
          rcases h3 with ⟨_, h3, _⟩ | ⟨_, _, h3⟩
          · rw [h3] at hf
            rw [(calling_free hf).2] at hd
            cases hd
          · rw [hvp] at h3; exact hne h3.symm
        cases h with
        | request => simp [isConversation] at hc
        | reply => simp [isConversation] at hc
        | data p v dx x hf ht hd' hv hn hl =>
          simp only [isConversation, beq_iff_eq] at hc
          exact from_init p v ht hc hv hf
        | failed c' q hl => exact hne (hk3.2 (by simp)).symm
        | returned q f s u x t hfr hl =>
          exact hne (hk3.2 (by cases s <;> cases t <;> simp [replyCode])).symm
        | disconnect p v hf ht hi hv hl =>
          simp only [isConversation, beq_iff_eq] at hc
          exact from_init p v ht hc hv hf
        | service c' hl => exact hne hk3.symm

def orphaned : List Act := [.connect 0 (some 1) true false 7, .pump 1 true, .connected 0, .send 0 0 8 false, .recv 1 0 false, .die 0]

/-- "The death of the other side is noticed": the subordinate does not notice it. Whatever happens, no event is given, and
`tprecv` does not return. -/
theorem conv_death_noticed_refuted : ∃ (srv : Nat → Bool) (as : List Act) (p q c : Nat) (d : Int),
    IsInitiator (run srv as) p c ∧ ((run srv as).procs p).alive = false ∧
    Receiving (run srv as) q d c ∧ ((run srv as).procs q).free (srv q) = true ∧
    ∀ bs, (∀ ev u x, .ended q c ev u x ∉ (run srv (as ++ bs)).log) ∧
      (Receiving (run srv (as ++ bs)) q d c → recvResult (run srv (as ++ bs)) q d false = .wait) := by
  refine ⟨server1, orphaned, 0, 1, 0, 0, ⟨⟨0, 1⟩, by decide +kernel, rfl⟩, by decide +kernel,
    ⟨⟨0, 0, .receive, false⟩, by decide +kernel, rfl, rfl⟩, by decide +kernel, ?_⟩
  intro bs
  have hk := run_keeps server1 (P := fun w => Silent 1 0 w ∧ ∀ ev u x, .ended 1 0 ev u x ∉ w.log) (by
    rintro w w' a hA hm ⟨h1, h2⟩
    refine ⟨h1.move hA hm, ?_⟩
    intro ev u x he
    rcases hm.entry hA.inv.home he with he | he
    · exact h2 ev u x he
    · generalize hE : Entry.ended 1 0 ev u x = E at he
      cases he with
      | ended p i v m hf ht hi hm' hn hp hq =>
        simp only [Entry.ended.injEq] at hE
        obtain ⟨rfl, hc, _⟩ := hE
        have := h1.2 m hi
        rw [← hc, this] at hm'
        cases hm'
      | _ => cases hE)
    orphaned ⟨⟨⟨⟨0, 1⟩, by decide +kernel, rfl, by decide +kernel⟩, by decide +kernel⟩, by
      intro ev u x h
      have h2 : (run server1 orphaned).log.all (fun e => match e with | .ended _ _ _ _ _ => false | _ => true) = true := by decide +kernel
      have := List.all_eq_true.1 h2 _ h
      simp at this⟩ bs
  refine ⟨hk.2, ?_⟩
  rintro ⟨v, h1, h2, h3⟩
  have h4 : takeFirst (isConversation v.corr) ((run server1 (orphaned ++ bs)).procs 1).inbox = none :=
    takeFirst_none.2 (by rw [h2]; exact hk.1.2)
  have h5 : takeFirst (isDisconnect v.corr) ((run server1 (orphaned ++ bs)).procs 1).inbox = none := by
    rw [takeFirst_none]
    intro m hm
    cases hd : isDisconnect v.corr m with
    | false => rfl
    | true =>
      have := hk.1.2 m hm
      rw [isDisconnect_eq hd, h2] at this
      simp [isConversation] at this
  unfold recvResult recv
  rw [h1]
  simp [h3, h4, h5]

/-- Towards the initiator it is noticed when the service manager tells it (C190). -/
theorem conv_death_noticed_partial (srv : Nat → Bool) (as : List Act) (p c : Nat) (d : Int)
    (hp : IsInitiator (run srv as) p c) (hn : NeatHistory srv as p) (ha : ((run srv as).procs p).alive = true)
    (he : .reported c ∈ (run srv as).log) (hr : Receiving (run srv as) p d c) :
    recvResult (run srv as) p d false ≠ .wait :=
  ((conv_end_noticed srv as p c d hp hn ha (Or.inr (Or.inl he))).1 hr false).1

/-! ### C196 success -/

def unread : List Act :=
  [.connect 0 (some 1) true false 7, .pump 1 true, .connected 0, .send 0 0 8 false, .send 0 0 9 true,
   .ret 1 true 5 11 true, .recv 0 0 false]

/-- "`TPEV_SVCSUCC` is given only when the service has received all that has been sent to it, and was in control": a service that
returns without having received anything, and without being in control, is successful as well. -/
theorem conv_success_read_refuted : ∃ (srv : Nat → Bool) (as : List Act) (p q c : Nat) (u : Int) (x : Nat),
    Sides (run srv as) c q p ∧ .ended p c .serviceSuccess u (some x) ∈ (run srv as).log ∧
    gotBy q c (run srv as).log = [] ∧ sentBy p c (run srv as).log = [8, 9] := by
  refine ⟨server1, unread, 0, 1, 0, 5, 11, Or.inr ⟨⟨⟨0, 1⟩, by decide +kernel, rfl⟩, ⟨⟨0, 1⟩, by decide +kernel, rfl⟩⟩,
    by decide +kernel, by decide +kernel, by decide +kernel⟩

/-- What holds: the data that comes with `TPEV_SVCSUCC` and the user code are those of the `tpreturn` with `TPSUCCESS`. -/
theorem conv_success_read_partial (srv : Nat → Bool) (as : List Act) (p c : Nat) (u : Int) (x : Option Nat)
    (h : .ended p c .serviceSuccess u x ∈ (run srv as).log) : ∃ y, x = some y ∧ .returned c true u y true ∈ (run srv as).log :=
  conv_events_true srv as p c .serviceSuccess u x h

/-! ### without neatness -/

/-- A service (1) connects to another one (2), and returns with the conversation open: data is lost. -/
def untidy : List Act :=
  [.begin 1, .connect 1 (some 2) false true 7, .pump 2 true, .connected 1, .finish 1, .send 2 0 8 false, .pump 1 true,
   .begin 1, .send 2 0 9 false, .recv 1 0 false]

theorem conv_data_prefix_untidy :
    gotBy 1 0 (run (fun p => p == 1 || p == 2) untidy).log = [9] ∧
    sentBy 2 0 (run (fun p => p == 1 || p == 2) untidy).log = [8, 9] := by decide +kernel

end Casual.Conv
