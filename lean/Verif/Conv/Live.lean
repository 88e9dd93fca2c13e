import Verif.Conv.Turn
/-!
What reaches the other side.
-/
namespace Casual.Conv

/-- The end of a conversation, as a message. -/
def isEnd (c : Nat) (m : Msg) : Prop := isConversation c m = true ∧ ∀ c' dx u x, m ≠ .data c' dx .absent u x

/-- The server waits for requests. -/
def Idle (srv : Nat → Bool) (w : World) (r : Nat) : Prop := srv r = true ∧ (w.procs r).busy = false

theorem mem_mid_ne {pre post : List Msg} {m m' : Msg} (h : m ∈ pre ++ m' :: post) (hne : m ≠ m') : m ∈ pre ++ post := by
  rcases List.mem_append.1 h with h | h
  · exact List.mem_append_left _ h
  · rcases List.mem_cons.1 h with h | h
    · exact absurd h hne
    · exact List.mem_append_right _ h

/-- The message stays, unless the conversation ends in the process, or the server is idle. -/
theorem Loc.stay {srv : Nat → Bool} {w w' : World} {r : Nat} (h : Loc srv w w' r) (ho : One w) {c : Nat} {m : Msg}
    (hm : m ∈ (w.procs r).inbox) (he : isEnd c m) (hp : 1 ≤ places c (w'.procs r)) (ha : (w'.procs r).alive = true)
    (hn : ¬ Idle srv w r) : m ∈ (w'.procs r).inbox := by
  obtain ⟨he1, he2⟩ := he
  have sub : ∀ l : List Msg, (w'.procs r).inbox = l → True := fun _ _ => trivial
  clear sub
  cases h with
  | idle h => rw [h]; exact hm
  | arrived m' h hs =>
    rw [h]
    rcases arrive_inbox (w.procs r) m' with e | ⟨e, _⟩
    · rw [e]; exact hm
    · rw [e]; exact List.mem_append_left _ hm
  | disconnected i v hf ht hv h =>
    by_cases hc : v.corr = c
    · exfalso
      subst hc
      have h1 : (w'.procs r).table = close (w.procs r).table i := by
        rw [h]; split
        · rw [discard_table]
        · rfl
      have h2 : (w'.procs r).inbox.countP (isRequest v.corr) ≤ (w.procs r).inbox.countP (isRequest v.corr) := by
        rw [h]; split
        · exact countP_discard _ _ _
        · exact Nat.le_refl _
      rw [closed_places ho ht h1 h2] at hp
      omega
    · rw [h]
      split
      · rcases discard_inbox { (w.procs r) with table := close (w.procs r).table i } v.corr with e | ⟨pre, m0, post, e1, e2, e3⟩
        · rw [e]; exact hm
        · rw [e3]
          have e1 : (w.procs r).inbox = pre ++ m0 :: post := e1
          rw [e1] at hm
          apply mem_mid_ne hm
          intro e
          subst e
          rw [isConversation_corr he1] at e2
          exact hc e2.symm
      · exact hm
  | gone ib hs h => rw [h] at ha; cases ha
  | dropped m' rest hs ha hb hc' hi hm' h => exact absurd ⟨hs, hb⟩ hn
  | began c' src dx x rest hs ha hb hc' hi hsrc h => exact absurd ⟨hs, hb⟩ hn
  | worked b hb hb' h => rw [h]; exact hm
  | refused t ht h => rw [h]; exact hm
  | asked q ro x hf hq h => rw [h]; exact hm
  | connected i c' pre post hc' hi h =>
    rw [h]
    rw [hi] at hm
    exact mem_mid_ne hm (by intro e; subst e; simp [isConversation] at he1)
  | sent i x ro v hf ht hd hn h => rw [h]; exact hm
  | ended i v m' pre post hf ht hi hm' hp' h =>
    by_cases hc : v.corr = c
    · exfalso
      subst hc
      have h2 : (w'.procs r).inbox.countP (isRequest v.corr) ≤ (w.procs r).inbox.countP (isRequest v.corr) := by
        rw [h, hi, countP_mid]; exact Nat.le_add_right _ _
      rw [closed_places ho ht (by rw [h]) h2] at hp
      omega
    · rw [h]
      rw [hi] at hm
      apply mem_mid_ne hm
      intro e
      subst e
      rw [← isConversation_corr he1, ← isConversation_corr hm'] at hc
      exact hc rfl
  | lost i v hf ht h => rw [h]; exact hm
  | got i v dx u x pre post hf ht hd hi hp h =>
    rw [h]
    rw [hi] at hm
    exact mem_mid_ne hm (he2 _ _ _ _)
  | returned f success user x transOk v hf hfr ht h => rw [h]; exact hm

/-! ### places -/

theorem Move.old_places {srv : Nat → Bool} {w w' : World} {a : Act} (h : Home w) (hm : Move srv w a w') {c r : Nat} {k : Parties}
    (hk : w.convs[c]? = some k) (hp : 1 ≤ Conv.places c (w'.procs r)) : 1 ≤ Conv.places c (w.procs r) := by
  rcases hm.places h c r with h1 | ⟨h1, _⟩
  · omega
  · have := lt_of_some hk; omega

theorem places_cases {c : Nat} {p : Proc} (h : 1 ≤ places c p) :
    (∃ v, some v ∈ p.table ∧ v.corr = c) ∨ (∃ s dx x, .request c s dx x ∈ p.inbox) := by
  unfold places at h
  by_cases h1 : 1 ≤ p.table.countP (isOpen c)
  · left
    obtain ⟨o, ho, ho'⟩ := List.countP_pos_iff.1 h1
    cases o with
    | none => simp [isOpen] at ho'
    | some v => exact ⟨v, ho, by simpa [isOpen] using ho'⟩
  · right
    have h2 : 0 < p.inbox.countP (isRequest c) := by omega
    obtain ⟨m, hm, hm'⟩ := List.countP_pos_iff.1 h2
    cases m with
    | request c' s dx x =>
      simp only [isRequest, beq_iff_eq] at hm'
      subst hm'
      exact ⟨s, dx, x, hm⟩
    | _ => simp [isRequest] at hm'

/-- An idle server that has a place for a conversation of which it is the subordinate has not handled the request. -/
theorem idle_request {w : World} (hh : Home w) (hf : Fram w) {srv : Nat → Bool} {r c : Nat} {k : Parties}
    (hk : w.convs[c]? = some k) (hr : r = k.subordinate) (hi : Idle srv w r) (hp : 1 ≤ places c (w.procs r)) :
    ∃ s dx x, .request c s dx x ∈ (w.procs r).inbox := by
  rcases places_cases hp with ⟨v, hv, hc⟩ | h
  · exfalso
    obtain ⟨k2, hk2, _, h3⟩ := hh.tab r v hv
    rw [hc, hk] at hk2
    simp only [Option.some.injEq] at hk2
    subst hk2
    rcases h3 with ⟨_, h3, _⟩ | ⟨h3, _⟩
    · exact hh.par k (List.mem_of_getElem? hk) (by rw [← h3, ← hr])
    · obtain ⟨i, hi'⟩ := List.getElem?_of_mem hv
      have := hf.busy r _ (hf.desc r i v hi' h3)
      rw [hi.2] at this
      cases this
  · exact h

/-- At the initiator a place is a descriptor. -/
theorem initiator_open {w : World} (hh : Home w) {r c : Nat} {k : Parties}
    (hk : w.convs[c]? = some k) (hr : r = k.initiator) (hp : 1 ≤ places c (w.procs r)) :
    ∃ v, some v ∈ (w.procs r).table ∧ v.corr = c := by
  rcases places_cases hp with h | ⟨s, dx, x, h⟩
  · exact h
  · exfalso
    obtain ⟨k2, hk2, h3, _⟩ := hh.msg r _ h
    have hk2 : w.convs[c]? = some k2 := hk2
    rw [hk] at hk2
    simp only [Option.some.injEq] at hk2
    subst hk2
    exact hh.par k (List.mem_of_getElem? hk) (by rw [← h3, ← hr])

/-! ### all data is there -/

/-- What has been received and what is pending is what has been sent. -/
def Full (w : World) (c r s : Nat) : Prop :=
  Pair w c r s → 1 ≤ places c (w.procs r) → gotBy r c w.log ++ pend c (w.procs r) = sentBy s c w.log

/-- The server does not wait for requests while it has an open conversation that it has initiated. -/
def NeatNow (srv : Nat → Bool) (w : World) (r : Nat) : Prop :=
  Idle srv w r → ∀ v, some v ∈ (w.procs r).table → v.initiator = false

theorem neat_places {srv : Nat → Bool} {w : World} (hh : Home w) {r c : Nat} {k : Parties} (hn : NeatNow srv w r)
    (hk : w.convs[c]? = some k) (hr : r = k.initiator) (hp : 1 ≤ places c (w.procs r)) : ¬ Idle srv w r := by
  intro hid
  obtain ⟨v, hv, hc⟩ := initiator_open hh hk hr hp
  have h1 := hn hid v hv
  obtain ⟨k2, hk2, _, h3⟩ := hh.tab r v hv
  rw [hc, hk] at hk2
  simp only [Option.some.injEq] at hk2
  subst hk2
  rcases h3 with ⟨h3, _⟩ | ⟨_, h3, _⟩
  · rw [h1] at h3; cases h3
  · exact hh.par k (List.mem_of_getElem? hk) (by rw [← h3, ← hr])

theorem Full.move {srv : Nat → Bool} {w w' : World} {a : Act} {c r s : Nat} (h : Full w c r s) (hi : Inv w) (hk : Known w)
    (hd : Disc w) (hf : Fram w) (hq : Req w) (hm : Move srv w a w')
    (hn : (∃ k, w.convs[c]? = some k ∧ r = k.initiator) → NeatNow srv w r) : Full w' c r s := by
  intro hp hpl
  by_cases hp0 : Pair w c r s
  · obtain ⟨k, hk', hrs⟩ := hp0
    have hp0 : Pair w c r s := ⟨k, hk', hrs⟩
    have hpl0 := hm.old_places hi.home hk' hpl
    have h0 := h hp0 hpl0
    cases hm.flow hi hp0 with
    | calm h1 hl => rw [h1, hl.1, hl.2]; exact h0
    | read x h1 hg hs => rw [hg, hs]; rw [h1] at h0; simpa using h0
    | write x v hv hc hdx hfr hg hs h1 =>
      rw [hg, hs]
      rcases h1 with h1 | ⟨h1, _⟩
      · rw [h1, ← List.append_assoc, h0]
      · have := (hd r c h1).1; omega
    | over h1 hl h2 => omega
    | dropped h1 hl hs ha hb hc ht =>
      rcases hrs with ⟨hr, _⟩ | ⟨hr, _⟩
      · exact absurd ⟨hs, hb⟩ (neat_places hi.home (hn ⟨k, hk', hr⟩) hk' hr hpl0)
      · obtain ⟨s', dx, x, hreq⟩ := idle_request (srv := srv) hi.home hf hk' hr ⟨hs, hb⟩ hpl0
        have h2 := (hq r c s' dx x hreq).pend
        rw [h2] at h1 h0
        rw [List.sublist_nil.1 h1, hl.1, hl.2]
        exact h0
  · obtain ⟨h1, h2, h3, _⟩ := hm.new hi.home hk hp hp0
    rw [h1, h2, h3]
    rfl

/-- What has been received is the first part of what has been sent. -/
theorem prefix_move {srv : Nat → Bool} {w w' : World} {a : Act} {c r s : Nat} (h : gotBy r c w.log <+: sentBy s c w.log)
    (hfull : Full w c r s) (hp : Pair w c r s) (hi : Inv w) (hm : Move srv w a w') :
    gotBy r c w'.log <+: sentBy s c w'.log := by
  cases hm.flow hi hp with
  | calm h1 hl => rw [hl.1, hl.2]; exact h
  | read x h1 hg hs =>
    rw [hg, hs]
    have hopen : 1 ≤ places c (w.procs r) := by
      cases hm.grow hi.home with
      | none h' => rw [h'] at hg; have := congrArg List.length hg; simp at this
      | exit q e h' hn he =>
        rw [h'] at hg
        rcases he with ⟨_, rfl⟩ | ⟨_, _, _, _, _, rfl⟩ <;>
        · simp only [gotBy] at hg; have := congrArg List.length hg; simp at this
      | one e h' hn =>
        apply hn.used
        rw [h'] at hg
        cases e with
        | got p' c' y b =>
          simp only [gotBy] at hg
          split at hg
          · rename_i e; simp [usedBy, e.1, e.2]
          · have := congrArg List.length hg; simp at this
        | _ => simp only [gotBy] at hg; have := congrArg List.length hg; simp at this
    have := hfull hp hopen
    rw [h1] at this
    exact ⟨pend c (w'.procs r), by rw [← this]; simp⟩
  | write x v hv hc hdx hfr hg hs h1 => rw [hg, hs]; exact h.trans (List.prefix_append _ _)
  | over h1 hl h2 => rw [hl.1, hl.2]; exact h
  | dropped h1 hl => rw [hl.1, hl.2]; exact h

/-! ### the end of the service -/

/-- The end of the service, or a report of it. -/
def finishes (c : Nat) : Entry → Bool
  | .returned c' _ _ _ _ => c' == c
  | .failed c' => c' == c
  | .reported c' => c' == c
  | _ => false

/-- The end reaches the initiator. -/
theorem Move.finished {srv : Nat → Bool} {w w' : World} {a : Act} (h : Home w) (hm : Move srv w a w') {c : Nat} {k : Parties}
    (hk : w.convs[c]? = some k) {e : Entry} (he : e ∈ w'.log) (hn : e ∉ w.log) (hf : finishes c e = true)
    (ha : (w'.procs k.initiator).alive = true) (hd : c ∉ (w.procs k.initiator).discarded) :
    ∃ m ∈ (w'.procs k.initiator).inbox, isEnd c m := by
  have ha0 := (hm.loc h k.initiator).alive ha
  have there : ∀ (m : Msg), m.corr = c → isEnd c m → w'.procs k.initiator = arrive (w.procs k.initiator) m →
      ∃ m ∈ (w'.procs k.initiator).inbox, isEnd c m := by
    intro m hmc he hp
    refine ⟨m, ?_, he⟩
    rw [hp, arrive_here ha0 (by rw [hmc]; exact hd)]
    simp
  have old : w'.log = w.log → ∃ m ∈ (w'.procs k.initiator).inbox, isEnd c m := by
    intro hl; rw [hl] at he; exact absurd he hn
  cases hm with
  | same => exact old rfl
  | drop => exact old rfl
  | begin => exact old rfl
  | finish => exact old rfl
  | refused => exact old rfl
  | died => exact old rfl
  | started q c' src dx x rest hs ha hb hc hi hu =>
    simp only [log_note, log_deliver, log_set, List.mem_cons] at he
    rcases he with rfl | he
    · simp [finishes] at hf
    · exact absurd he hn
  | asked p q so ro x hf' hq hu hx =>
    simp only [log_note, log_deliver, log_set, List.mem_cons] at he
    rcases he with rfl | he
    · simp [finishes] at hf
    · exact absurd he hn
  | connected p i c' pre post ha hc hi =>
    simp only [log_note, log_set, List.mem_cons] at he
    rcases he with rfl | he
    · simp [finishes] at hf
    · exact absurd he hn
  | sent p d x ro v hf' ht hd hn' hu =>
    simp only [log_note, log_deliver, log_set, List.mem_cons] at he
    rcases he with rfl | he
    · simp [finishes] at hf
    · exact absurd he hn
  | ended a p d v m pre post hact hf' ht hi hm hp =>
    simp only [log_note, log_set, List.mem_cons] at he
    rcases he with rfl | he
    · simp [finishes] at hf
    · exact absurd he hn
  | lost p d a v hact hf' ht hu =>
    simp only [log_note, log_set, List.mem_cons] at he
    rcases he with rfl | he
    · simp [finishes] at hf
    · exact absurd he hn
  | got p d nb v dx u x pre post hf' ht hd hi hp hn' =>
    simp only [log_note, log_set, List.mem_cons] at he
    rcases he with rfl | he
    · simp [finishes] at hf
    · exact absurd he hn
  | disconnected p d v hf' ht hv hu =>
    simp only [log_note, log_deliver, log_set, List.mem_cons] at he
    rcases he with rfl | he
    · simp [finishes] at hf
    · exact absurd he hn
  | unheard q f success user x transOk hf' hfr hu =>
    simp only [log_note, log_set, List.mem_cons] at he
    rcases he with rfl | he
    · simp [finishes] at hf
    · exact absurd he hn
  | orphan q c' src dx x rest hs ha' hb hi hu =>
    simp only [log_note, log_set, List.mem_cons] at he
    rcases he with rfl | rfl | he
    · simp [finishes] at hf
    · exfalso
      simp only [finishes, beq_iff_eq] at hf
      subst hf
      obtain ⟨k2, hk2, h1, h2, _⟩ := h.msg q (.request c' src dx x) (by rw [hi]; exact List.mem_cons_self)
      have hk2 : w.convs[c']? = some k2 := hk2
      rw [hk] at hk2
      simp only [Option.some.injEq] at hk2
      subst hk2
      have hne := h.request_ne (p := q) (by rw [hi]; exact List.mem_cons_self)
      rw [set_other _ hne, h2, ha0] at hu
      cases hu
    · exact absurd he hn
  | failed q c' src dx x rest hs ha' hb hi =>
    simp only [log_note, log_deliver, log_set, List.mem_cons] at he
    rcases he with rfl | rfl | he
    · simp [finishes] at hf
    · simp only [finishes, beq_iff_eq] at hf
      subst hf
      obtain ⟨k2, hk2, h1, h2, _⟩ := h.msg q (.request c' src dx x) (by rw [hi]; exact List.mem_cons_self)
      have hk2 : w.convs[c']? = some k2 := hk2
      rw [hk] at hk2
      simp only [Option.some.injEq] at hk2
      subst hk2
      have hne := h.request_ne (p := q) (by rw [hi]; exact List.mem_cons_self)
      subst h2
      refine there (.data c' .send .error 0 0) rfl ⟨by simp [isConversation], by simp⟩ ?_
      rw [procs_note, procs_note, set_other _ hne, deliver_self, set_other _ hne]
    · exact absurd he hn
  | returned q f success user x transOk v hf' hfr hu hl =>
    simp only [log_note, log_deliver, log_set, List.mem_cons] at he
    rcases he with rfl | he
    · simp only [finishes, beq_iff_eq] at hf
      subst hf
      obtain ⟨k2, hk2, h1, h2⟩ := h.frm q f hfr
      rw [hk] at hk2
      simp only [Option.some.injEq] at hk2
      subst hk2
      have hne := h.frame_ne hfr
      refine there (.data f.corr .terminated (replyCode success transOk) user x) rfl ⟨by simp [isConversation], ?_⟩ ?_
      · intro c' dx u y e
        cases success <;> cases transOk <;> simp [replyCode] at e
      · rw [← h2, set_other _ hne, procs_note, deliver_self]
    · exact absurd he hn
  | thrown q f success user x transOk hf' hfr hu hl =>
    simp only [log_note, log_deliver, log_set, List.mem_cons] at he
    rcases he with rfl | rfl | he
    · simp [finishes] at hf
    · simp only [finishes, beq_iff_eq] at hf
      subst hf
      obtain ⟨k2, hk2, h1, h2⟩ := h.frm q f hfr
      rw [hk] at hk2
      simp only [Option.some.injEq] at hk2
      subst hk2
      have hne := h.frame_ne hfr
      refine there (.data f.corr .terminated (replyCode success transOk) user x) rfl ⟨by simp [isConversation], ?_⟩ ?_
      · intro c' dx u y e
        cases success <;> cases transOk <;> simp [replyCode] at e
      · rw [← h2, procs_note, set_other _ hne, procs_note, deliver_self]
    · exact absurd he hn
  | reported c' k' hk' =>
    simp only [log_note, log_deliver, List.mem_cons] at he
    rcases he with rfl | he
    · simp only [finishes, beq_iff_eq] at hf
      subst hf
      rw [hk] at hk'
      simp only [Option.some.injEq] at hk'
      subst hk'
      exact there (.service c') rfl ⟨by simp [isConversation], by simp⟩ (by rw [procs_note, deliver_self])
    · exact absurd he hn

/-- After the end of the service, the initiator has a message that tells it. -/
def Ends (w : World) (c : Nat) : Prop :=
  ∀ k, w.convs[c]? = some k → (∃ e ∈ w.log, finishes c e = true) → (w.procs k.initiator).alive = true →
    1 ≤ places c (w.procs k.initiator) → ∃ m ∈ (w.procs k.initiator).inbox, isEnd c m

theorem finishes_corr {c : Nat} {e : Entry} (h : finishes c e = true) : e.corr? = some c := by
  cases e <;> simp [finishes] at h <;> simp [Entry.corr?, h]

theorem Move.convs_new {srv : Nat → Bool} {w w' : World} {a : Act} (hm : Move srv w a w') {c : Nat} {k : Parties}
    (h : w'.convs[c]? = some k) : w.convs[c]? = some k ∨ c = w.convs.length := by
  rcases hm.convs with e | ⟨k', e⟩
  · rw [e] at h; exact Or.inl h
  · rw [e] at h
    have hl := lt_of_some h
    simp only [List.length_append, List.length_singleton] at hl
    by_cases hc : c < w.convs.length
    · rw [List.getElem?_append_left hc] at h; exact Or.inl h
    · right; omega

/-- A conversation that is new has no entries but the one of `tpconnect`. -/
theorem Move.fresh_log {srv : Nat → Bool} {w w' : World} {a : Act} (hi : Home w) (hk : Known w) (hm : Move srv w a w')
    {e : Entry} (he : e ∈ w'.log) (hc : e.corr? = some w.convs.length) (hl : w.convs.length < w'.convs.length) :
    ∃ ro x, e = .asked w.convs.length ro x := by
  have hcl : w'.convs ≠ w.convs := by intro e; rw [e] at hl; omega
  cases hm <;> first | (exfalso; exact hcl rfl) | (exfalso; apply hcl; simp; done) | skip
  rename_i p q so ro x hf hq hu hx
  simp only [log_note, log_deliver, log_set, List.mem_cons] at he
  rcases he with he | he
  · exact ⟨ro, x, he⟩
  · exact absurd (hk e he _ hc) (Nat.lt_irrefl _)

theorem Ends.move {srv : Nat → Bool} {w w' : World} {a : Act} {c : Nat} (h : Ends w c) (hi : Inv w) (hk : Known w)
    (hd : Disc w) (hm : Move srv w a w')
    (hn : ∀ k, w.convs[c]? = some k → NeatNow srv w k.initiator) : Ends w' c := by
  intro k hk' ⟨e, he, hf⟩ ha hp
  rcases hm.convs_new hk' with hk0 | hk0
  · have hp0 := hm.old_places hi.home hk0 hp
    by_cases heo : e ∈ w.log
    · obtain ⟨m, h1, h2⟩ := h k hk0 ⟨e, heo, hf⟩ ((hm.loc hi.home _).alive ha) hp0
      exact ⟨m, (hm.loc hi.home _).stay hi.one h1 h2 hp ha (neat_places hi.home (hn k hk0) hk0 rfl hp0), h2⟩
    · refine hm.finished hi.home hk0 he heo hf ha ?_
      intro hdc
      have := (hd _ c hdc).1
      omega
  · subst hk0
    obtain ⟨ro, x, rfl⟩ := hm.fresh_log hi.home hk he (finishes_corr hf) (lt_of_some hk')
    simp [finishes] at hf

/-! ### tpdiscon -/

/-- After `tpdiscon` the subordinate has the message of it. -/
def Discon (w : World) (c : Nat) : Prop :=
  ∀ k, w.convs[c]? = some k → .disconnected c ∈ w.log → (w.procs k.subordinate).alive = true →
    1 ≤ places c (w.procs k.subordinate) → .disconnect c ∈ (w.procs k.subordinate).inbox

theorem Move.disconnects {srv : Nat → Bool} {w w' : World} {a : Act} (h : Home w) (hm : Move srv w a w') {c : Nat} {k : Parties}
    (hk : w.convs[c]? = some k) (he : .disconnected c ∈ w'.log) (hn : .disconnected c ∉ w.log)
    (hd : c ∉ (w.procs k.subordinate).discarded) : .disconnect c ∈ (w'.procs k.subordinate).inbox := by
  cases hm.grow h with
  | none h' => rw [h'] at he; exact absurd he hn
  | exit q e h' hn' he' =>
    rw [h'] at he
    simp only [List.mem_cons, reduceCtorEq, false_or] at he
    rcases he with he | he
    · rcases he' with ⟨c', he'⟩ | ⟨_, _, _, _, _, he'⟩ <;> rw [he'] at he <;> cases he
    · exact absurd he hn
  | one e h' hn' =>
    cases hm with
    | disconnected p d v hf ht hv hu =>
      simp only [log_note, log_deliver, log_set, List.mem_cons] at he
      rcases he with he | he
      · simp only [Entry.disconnected.injEq] at he
        subst he
        obtain ⟨k2, hk2, _, h3⟩ := h.tab p v (mem_of_idx ht)
        rw [hk] at hk2
        simp only [Option.some.injEq] at hk2
        subst hk2
        have h4 : v.peer = k.subordinate := by
          rcases h3 with ⟨_, _, h3⟩ | ⟨h3, _⟩
          · exact h3
          · rw [hv] at h3; cases h3
        have hne := h.peer_ne ht
        rw [procs_note, ← h4, (procs_two hne).2, arrive_here hu (by rw [h4]; exact hd)]
        simp
      · exact absurd he hn
    | started q c' src dx x rest hs ha hb hc hi hu => simp [hn] at he
    | asked p q so ro x hf' hq hu hx => simp [hn] at he
    | connected p i c' pre post ha hc hi => simp [hn] at he
    | sent p d x ro v hf' ht hd hn' hu => simp [hn] at he
    | ended a p d v m pre post hact hf' ht hi hm hp => simp [hn] at he
    | lost p d a v hact hf' ht hu => simp [hn] at he
    | got p d nb v dx u x pre post hf' ht hd hi hp hn' => simp [hn] at he
    | unheard q f success user x transOk hf' hfr hu => simp [hn] at he
    | orphan q c' src dx x rest hs ha' hb hi hu => simp [hn] at he
    | failed q c' src dx x rest hs ha' hb hi => simp [hn] at he
    | returned q f success user x transOk v hf' hfr hu hl => simp [hn] at he
    | thrown q f success user x transOk hf' hfr hu hl => simp [hn] at he
    | reported c' k' hk' => simp [hn] at he
    | same => exact absurd he hn
    | drop => exact absurd he hn
    | begin => exact absurd he hn
    | finish => exact absurd he hn
    | refused => exact absurd he hn
    | died => exact absurd he hn

theorem Discon.move {srv : Nat → Bool} {w w' : World} {a : Act} {c : Nat} (h : Discon w c) (hi : Inv w) (hk : Known w)
    (hd : Disc w) (hf : Fram w) (hq : Req w) (hm : Move srv w a w') : Discon w' c := by
  intro k hk' he ha hp
  rcases hm.convs_new hk' with hk0 | hk0
  · have hp0 := hm.old_places hi.home hk0 hp
    by_cases heo : Entry.disconnected c ∈ w.log
    · have h1 := h k hk0 heo ((hm.loc hi.home _).alive ha) hp0
      refine (hm.loc hi.home _).stay hi.one h1 ⟨by simp [isConversation], by simp⟩ hp ha ?_
      intro hid
      obtain ⟨s, dx, x, hr⟩ := idle_request hi.home hf hk0 rfl hid hp0
      exact (hq _ _ _ _ _ hr).disc heo
    · refine hm.disconnects hi.home hk0 he heo ?_
      intro hdc
      have := (hd _ c hdc).1
      omega
  · subst hk0
    obtain ⟨ro, x, h'⟩ := hm.fresh_log hi.home hk he rfl (lt_of_some hk')
    cases h'

/-! ### the start of the service -/

structure Start (w : World) : Prop where
  once : w.log.Pairwise (fun e' e => ∀ c b x b' x', e = .started c b x → e' ≠ .started c b' x')
  once' : w.log.Pairwise (fun e' e => ∀ c b x b' x', e = .asked c b x → e' ≠ .asked c b' x')
  asked : ∀ c b x, .started c b x ∈ w.log → .asked c b x ∈ w.log
  conn : ∀ c d, .connected c d ∈ w.log → ∃ b x, .started c b x ∈ w.log

theorem Start.move {srv : Nat → Bool} {w w' : World} {a : Act} (h : Start w) (hi : Inv w) (hk : Known w) (hs : Src w)
    (hq : Req w) (hm : Move srv w a w') : Start w' := by
  have b1 : ∀ e, New srv w w' e → ∀ e' ∈ w.log, ∀ c b x b' x', e' = .started c b x → e ≠ .started c b' x' := by
    intro e hn e' he' c b x b' x' h1 h2
    subst h1 h2
    cases hn with
    | started q _ src dx _ rest hin hin' =>
      exact (hq q c src dx x' (by rw [hin]; exact List.mem_cons_self)).start _ _ he'
  have b2 : ∀ e, New srv w w' e → ∀ e' ∈ w.log, ∀ c b x b' x', e' = .asked c b x → e ≠ .asked c b' x' := by
    intro e hn e' he' c b x b' x' h1 h2
    subst h1 h2
    cases hn with
    | asked p q ro _ hk' => exact absurd (hk _ he' _ rfl) (Nat.lt_irrefl _)
  refine ⟨?_, ?_, ?_, ?_⟩
  · cases hm.grow hi.home with
    | none h' => rw [h']; exact h.once
    | one e h' hn => rw [h', List.pairwise_cons]; exact ⟨b1 e hn, h.once⟩
    | exit q e h' hn he =>
      rw [h', List.pairwise_cons, List.pairwise_cons]
      exact ⟨fun _ _ _ _ _ _ _ _ h => (by cases h), b1 e hn, h.once⟩
  · cases hm.grow hi.home with
    | none h' => rw [h']; exact h.once'
    | one e h' hn => rw [h', List.pairwise_cons]; exact ⟨b2 e hn, h.once'⟩
    | exit q e h' hn he =>
      rw [h', List.pairwise_cons, List.pairwise_cons]
      exact ⟨fun _ _ _ _ _ _ _ _ h => (by cases h), b2 e hn, h.once'⟩
  · intro c b x he
    rcases hm.entry hi.home he with he | he
    · exact hm.keep (h.asked c b x he)
    · cases he with
      | started q _ src dx _ rest hin hin' =>
        exact hm.keep (hs q (.request c src dx x) (by rw [hin]; exact List.mem_cons_self))
  · intro c d he
    rcases hm.entry hi.home he with he | he
    · obtain ⟨b, x, h'⟩ := h.conn c d he
      exact ⟨b, x, hm.keep h'⟩
    · cases he with
      | connected p _ _ hc hin =>
        obtain ⟨b, x, h'⟩ := hs p (.reply c) hin
        exact ⟨b, x, hm.keep h'⟩

end Casual.Conv
