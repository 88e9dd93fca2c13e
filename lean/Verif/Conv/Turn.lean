import Verif.Conv.Sound
/-!
Whoever is in control has nothing to receive.
-/
namespace Casual.Conv

theorem control_pos {p : Proc} {v : Val} (h : some v ∈ p.table) (hd : v.duplex = .send) : 1 ≤ rights v.corr p := by
  unfold rights
  have := table_pos_of (f := hasControl v.corr) h (by simp [hasControl, hd])
  omega

theorem grants_pos {p : Proc} {m : Msg} {c : Nat} (h : m ∈ p.inbox) (hg : grants c m = true) : 1 ≤ rights c p := by
  unfold rights
  have := countP_pos_of (f := grants c) h hg
  omega

/-- The two sides of a conversation do not have the right to send at the same time. -/
theorem Inv.turn {w : World} (h : Inv w) {p : Nat} {v : Val} (hv : some v ∈ (w.procs p).table)
    (hd : v.duplex = .send) : rights v.corr (w.procs v.peer) = 0 := by
  obtain ⟨k, hk, _, hpq⟩ := h.home.tab p v hv
  have h1 := h.single v.corr k hk
  have h2 := control_pos hv hd
  unfold both at h1
  rcases hpq with ⟨_, a, b⟩ | ⟨_, a, b⟩
  · rw [← a, ← b] at h1; omega
  · rw [← a, ← b] at h1; omega

/-- Data that arrives has been sent by the side that is in control. -/
theorem Sent.dataOf {srv : Nat → Bool} {w w' : World} {r : Nat} {m : Msg} (h : Sent srv w w' r m) {c x : Nat}
    (hx : dataOf c m = some x) : ∃ p v, some v ∈ (w.procs p).table ∧ v.duplex = .send ∧ v.corr = c ∧ v.peer = r := by
  cases h with
  | data p v dx y hf ht hd hv hn hl =>
    refine ⟨p, v, ht, hd, ?_, hv⟩
    apply Classical.byContradiction
    intro e
    simp [Conv.dataOf, e] at hx
  | returned q f success user y transOk hfr hl =>
    cases success <;> cases transOk <;> simp [Conv.dataOf, replyCode] at hx
  | _ => simp [Conv.dataOf] at hx

structure Turn (w : World) : Prop where
  quiet : ∀ r v, some v ∈ (w.procs r).table → v.duplex = .send → pend v.corr (w.procs r) = []
  last : ∀ r c, (w.procs r).inbox.Pairwise (fun m m' => grants c m = true → dataOf c m' = none)

theorem Turn.move {srv : Nat → Bool} {w w' : World} {a : Act} (h : Turn w) (hi : Inv w) (hrq : Req w)
    (hm : Move srv w a w') : Turn w' := by
  have nodata : ∀ r c m, Sent srv w w' r m → 1 ≤ rights c (w.procs r) → dataOf c m = none := by
    intro r c m hs hr
    cases hx : dataOf c m with
    | none => rfl
    | some x =>
      obtain ⟨p, v, h1, h2, h3, h4⟩ := hs.dataOf hx
      have := hi.turn h1 h2
      rw [h3, h4] at this
      omega
  constructor
  · intro r v' hv' hd'
    have hl := hm.loc hi.home r
    have old : some v' ∈ (w.procs r).table → pend v'.corr (w'.procs r) = [] := by
      intro hv
      have h0 := h.quiet r v' hv hd'
      rcases hl.inbox with hs | ⟨m, he, hs⟩
      · unfold pend at h0 ⊢
        have := List.Sublist.filterMap (dataOf v'.corr) hs
        rw [h0] at this
        exact List.sublist_nil.1 this
      · unfold pend at h0 ⊢
        rw [he, List.filterMap_append, h0]
        simp [nodata r v'.corr m hs (control_pos hv hd')]
    cases hl with
    | idle h => rw [h] at hv'; exact old hv'
    | arrived m h hs => rw [h, arrive_table] at hv'; exact old hv'
    | dropped m rest hs ha hb hc' hi hm h => rw [h] at hv'; exact old hv'
    | began c' src dx x rest hs ha hbu hc' hin hsrc h =>
      rw [h] at hv'
      rcases mem_reserve hv' with hv | hv
      · exact old hv
      · subst hv
        have := (hrq r c' src dx x (by rw [hin]; exact List.mem_cons_self)).pend
        rw [h]
        unfold pend at this ⊢
        rw [hin] at this
        exact this
    | gone ib hs h => rw [h] at hv'; exact old hv'
    | worked b hbf hb' h => rw [h] at hv'; exact old hv'
    | refused t ht h =>
      rw [h] at hv'
      rcases ht with ht | ht
      · rw [ht] at hv'; exact old hv'
      · rw [ht] at hv'; exact old (by simpa using hv')
    | asked q ro x hf hq h =>
      rw [h] at hv'
      rcases mem_reserve hv' with hv | hv
      · exact old hv
      · subst hv
        rw [h]
        exact hi.home.fresh_pend (by simp)
    | connected i c' pre post hc' hi h => rw [h] at hv'; exact old hv'
    | sent i x ro v hf ht hdx hn hp =>
      rw [hp] at hv'
      rcases mem_set hv' with hv | hv
      · exact old hv
      · simp only [Option.some.injEq] at hv
        subst hv
        rw [hp]
        exact h.quiet r v (mem_of_idx ht) hdx
    | ended i v m pre post hf ht hi hm hp h => rw [h] at hv'; exact old (mem_close hv')
    | lost i v hf ht h => rw [h] at hv'; exact old (mem_close hv')
    | got i v dx u x pre post hf ht hdx hin hpre hp =>
      rw [hp] at hv'
      rcases mem_set hv' with hv | hv
      · exact old hv
      · simp only [Option.some.injEq] at hv
        subst hv
        have hdx' : dx = .send := by
          apply Classical.byContradiction
          intro e
          simp only [if_neg e] at hd'
          cases hd'
        subst hdx'
        rw [hp]
        unfold pend
        show (pre ++ post).filterMap (dataOf v.corr) = []
        rw [List.filterMap_eq_nil_iff]
        intro m hmm
        rcases List.mem_append.1 hmm with hmm | hmm
        · exact dataOf_conversation (hpre m hmm)
        · have := h.last r v.corr
          rw [hin] at this
          have := (List.pairwise_append.1 this).2.1
          exact (List.pairwise_cons.1 this).1 m hmm (by simp [grants])
    | disconnected i v hf ht hv h =>
      have : some v' ∈ close (w.procs r).table i := by
        rw [h] at hv'
        split at hv'
        · rw [discard_table] at hv'; exact hv'
        · exact hv'
      exact old (mem_close this)
    | returned f success user x transOk v hf hfr ht h => rw [h] at hv'; exact old (mem_close hv')
  · intro r c
    rcases (hm.loc hi.home r).inbox with hs | ⟨m, he, hs⟩
    · exact (h.last r c).sublist hs
    · rw [he, List.pairwise_append]
      refine ⟨h.last r c, List.pairwise_singleton _ _, ?_⟩
      intro m1 h1 m2 h2 hg
      rw [List.mem_singleton] at h2
      subst h2
      exact nodata r c _ hs (grants_pos h1 hg)

/-! ### the end of a conversation -/

def endsFor (r c : Nat) : Entry → Bool
  | .ended r' c' _ _ _ => r' == r && c' == c
  | .lost r' c' => r' == r && c' == c
  | _ => false

/-- A use of the conversation by a call of the process that has gone well or has ended it. -/
def usedBy (r c : Nat) : Entry → Bool
  | .sent r' c' _ => r' == r && c' == c
  | .got r' c' _ _ => r' == r && c' == c
  | .ended r' c' _ _ _ => r' == r && c' == c
  | .lost r' c' => r' == r && c' == c
  | _ => false

theorem open_places {p : Proc} {v : Val} (h : some v ∈ p.table) : 1 ≤ places v.corr p := by
  unfold places
  have := table_pos_of (f := isOpen v.corr) h (by simp [isOpen])
  omega

/-- When it has ended for a process it has no place there. -/
def Over (w : World) : Prop := ∀ e ∈ w.log, ∀ r c, endsFor r c e = true → places c (w.procs r) = 0

theorem Over.move {srv : Nat → Bool} {w w' : World} {a : Act} (h : Over w) (hi : Inv w) (hk : Known w)
    (hm : Move srv w a w') : Over w' := by
  intro e he r c hr
  rcases hm.entry hi.home he with he | he
  · have h0 := h e he r c hr
    rcases hm.places hi.home c r with h1 | ⟨h1, _⟩
    · omega
    · exfalso
      have : c < w.convs.length := by
        apply hk e he c
        cases e <;> simp [endsFor] at hr <;> simp [Entry.corr?, hr.2]
      omega
  · cases he with
    | ended p i v m hf ht hin hmm hn hp hq =>
      simp only [endsFor, Bool.and_eq_true, beq_iff_eq] at hr
      obtain ⟨rfl, rfl⟩ := hr
      exact closed_places hi.one ht hp hq
    | lost p i v hf ht hp hq =>
      simp only [endsFor, Bool.and_eq_true, beq_iff_eq] at hr
      obtain ⟨rfl, rfl⟩ := hr
      exact closed_places hi.one ht hp (by rw [hq]; exact Nat.le_refl _)
    | _ => simp [endsFor] at hr

/-- After the end, newest first: no use is newer than an end. -/
def Final (w : World) : Prop := w.log.Pairwise (fun e' e => ∀ r c, endsFor r c e = true → usedBy r c e' = false)

theorem New.used {srv : Nat → Bool} {w w' : World} {e : Entry} (h : New srv w w' e) {r c : Nat} (hu : usedBy r c e = true) :
    1 ≤ places c (w.procs r) := by
  cases h with
  | sent p v x hf ht hd =>
    simp only [usedBy, Bool.and_eq_true, beq_iff_eq] at hu
    obtain ⟨rfl, rfl⟩ := hu
    exact open_places ht
  | got p v x b hf ht hd =>
    simp only [usedBy, Bool.and_eq_true, beq_iff_eq] at hu
    obtain ⟨rfl, rfl⟩ := hu
    exact open_places ht
  | ended p i v m hf ht hin hmm hn hp hq =>
    simp only [usedBy, Bool.and_eq_true, beq_iff_eq] at hu
    obtain ⟨rfl, rfl⟩ := hu
    exact open_places (mem_of_idx ht)
  | lost p i v hf ht hp hq =>
    simp only [usedBy, Bool.and_eq_true, beq_iff_eq] at hu
    obtain ⟨rfl, rfl⟩ := hu
    exact open_places (mem_of_idx ht)
  | _ => simp [usedBy] at hu

theorem Final.move {srv : Nat → Bool} {w w' : World} {a : Act} (h : Final w) (hi : Inv w) (ho : Over w)
    (hm : Move srv w a w') : Final w' := by
  have base : ∀ e, New srv w w' e → ∀ e' ∈ w.log, ∀ r c, endsFor r c e' = true → usedBy r c e = false := by
    intro e hn e' he' r c hr
    cases hu : usedBy r c e with
    | false => rfl
    | true =>
      have h1 := hn.used hu
      have h2 := ho e' he' r c hr
      omega
  unfold Final
  cases hm.grow hi.home with
  | none h' => rw [h']; exact h
  | one e h' hn => rw [h', List.pairwise_cons]; exact ⟨base e hn, h⟩
  | exit q e h' hn he =>
    rw [h', List.pairwise_cons, List.pairwise_cons]
    exact ⟨fun _ _ _ _ _ => rfl, base e hn, h⟩

/-! ### what the events tell -/

/-- What has happened, when the event has been given to the process `r`. -/
def EventTrue (w : World) (r c : Nat) (u : Int) (x : Option Nat) : Event → Prop
  | .disconnect => .disconnected c ∈ w.log ∧ ∃ k, w.convs[c]? = some k ∧ r = k.subordinate
  | .serviceSuccess => ∃ y, x = some y ∧ .returned c true u y true ∈ w.log
  | .serviceFail => ∃ y t, (x = some y ∨ x = none) ∧ .returned c false u y t ∈ w.log
  | .serviceError => .failed c ∈ w.log ∨ .reported c ∈ w.log ∨ ∃ u' y t, .returned c true u' y t ∈ w.log
  | .sendOnly => False

theorem EventTrue.mono {srv : Nat → Bool} {w w' : World} {a : Act} (hm : Move srv w a w') {r c : Nat} {u : Int} {x : Option Nat}
    {e : Event} (h : EventTrue w r c u x e) : EventTrue w' r c u x e := by
  cases e with
  | disconnect =>
    obtain ⟨h1, k, h2, h3⟩ := h
    refine ⟨hm.keep h1, k, ?_, h3⟩
    rcases hm.convs with e | ⟨k', e⟩
    · rw [e]; exact h2
    · rw [e, List.getElem?_append_left (lt_of_some h2)]; exact h2
  | serviceSuccess => obtain ⟨y, h1, h2⟩ := h; exact ⟨y, h1, hm.keep h2⟩
  | serviceFail => obtain ⟨y, t, h1, h2⟩ := h; exact ⟨y, t, h1, hm.keep h2⟩
  | serviceError =>
    rcases h with h | h | ⟨u', y, t, h⟩
    · exact Or.inl (hm.keep h)
    · exact Or.inr (Or.inl (hm.keep h))
    · exact Or.inr (Or.inr ⟨u', y, t, hm.keep h⟩)
  | sendOnly => exact h

def Told (w : World) : Prop := ∀ r c e u x, .ended r c e u x ∈ w.log → EventTrue w r c u x e

theorem Told.move {srv : Nat → Bool} {w w' : World} {a : Act} (h : Told w) (hi : Inv w) (hs : Src w) (ht : Turn w)
    (hm : Move srv w a w') : Told w' := by
  intro r c e u x he
  rcases hm.entry hi.home he with he | he
  · exact (h r c e u x he).mono hm
  · generalize hE : Entry.ended r c e u x = E at he
    cases he with
    | ended p i v m hf htb hin hmm hn hp hq =>
      simp only [Entry.ended.injEq] at hE
      obtain ⟨rfl, rfl, rfl, rfl, rfl⟩ := hE
      apply EventTrue.mono hm
      have hj := hs r m hin
      obtain ⟨k0, hk0, hk1, hk2⟩ := hi.home.tab r v (mem_of_idx htb)
      have hdx : v.duplex = .send ∨ v.duplex = .receive := by
        cases hd : v.duplex with
        | send => exact Or.inl rfl
        | receive => exact Or.inr rfl
        | terminated => exact absurd hd hk1
      cases m with
      | request c' s dx y => simp [isConversation] at hmm
      | reply c' => simp [isConversation] at hmm
      | disconnect c' =>
        simp only [isConversation, beq_iff_eq] at hmm
        subst hmm
        obtain ⟨k, h1, h2⟩ := hi.home.msg r _ hin
        exact ⟨hj, k, h1, h2⟩
      | service c' =>
        simp only [isConversation, beq_iff_eq] at hmm
        subst hmm
        exact Or.inr (Or.inl hj)
      | data c' dx code u' y =>
        simp only [isConversation, beq_iff_eq] at hmm
        subst hmm
        rcases hdx with hd | hd
        · simp only [endOf, hd, if_true]
          cases code with
          | absent =>
            exfalso
            have := ht.quiet r v (mem_of_idx htb) hd
            unfold pend at this
            rw [List.filterMap_eq_nil_iff] at this
            have := this _ hin
            simp [dataOf] at this
          | ok => exact Or.inr (Or.inr ⟨_, _, _, hj⟩)
          | fail => obtain ⟨t, hj⟩ := hj; exact ⟨y, t, Or.inr rfl, hj⟩
          | error =>
            rcases hj with hj | hj
            · exact Or.inl hj
            · exact Or.inr (Or.inr ⟨_, _, _, hj⟩)
        · simp only [endOf, hd, reduceCtorEq, if_false]
          cases code with
          | absent => exact absurd rfl (hn hd _ _ _ _)
          | ok => exact ⟨y, rfl, hj⟩
          | fail => obtain ⟨t, hj⟩ := hj; exact ⟨y, t, Or.inl rfl, hj⟩
          | error =>
            rcases hj with hj | hj
            · exact Or.inl hj
            · exact Or.inr (Or.inr ⟨_, _, _, hj⟩)
    | _ => cases hE

end Casual.Conv
