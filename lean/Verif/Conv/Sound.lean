import Verif.Conv.New
/-!
The invariants of a conversation.
-/
namespace Casual.Conv

/-! ### what is to be discarded -/

theorem Loc.discarded {srv : Nat → Bool} {w w' : World} {r : Nat} (h : Loc srv w w' r) {c : Nat}
    (hc : c ∈ (w'.procs r).discarded) : c ∈ (w.procs r).discarded ∨
      ∃ i v, (w.procs r).table[i]? = some (some v) ∧ v.corr = c ∧ (w'.procs r).table = close (w.procs r).table i ∧
        (w'.procs r).inbox.Sublist (w.procs r).inbox := by
  have hb := h.inbox
  cases h with
  | idle h => rw [h] at hc; exact Or.inl hc
  | arrived m h hs => rw [h] at hc; exact Or.inl (arrive_discarded _ _ hc)
  | dropped m rest hs ha hb hc' hi hm h => rw [h] at hc; exact Or.inl hc
  | began c' src dx x rest hs ha hb hc' hi hsrc h => rw [h] at hc; exact Or.inl hc
  | gone ib hs h => rw [h] at hc; exact Or.inl hc
  | worked b hb hb' h => rw [h] at hc; exact Or.inl hc
  | refused t ht h => rw [h] at hc; exact Or.inl hc
  | asked q ro x hf hq h => rw [h] at hc; exact Or.inl hc
  | connected i c' pre post hc' hi h => rw [h] at hc; exact Or.inl hc
  | sent i x ro v hf ht hd hn h => rw [h] at hc; exact Or.inl hc
  | ended i v m pre post hf ht hi hm hp h => rw [h] at hc; exact Or.inl hc
  | lost i v hf ht h => rw [h] at hc; exact Or.inl hc
  | got i v dx u x pre post hf ht hd hi hp h => rw [h] at hc; exact Or.inl hc
  | disconnected i v hf ht hv h =>
    have hin : (w'.procs r).inbox.Sublist (w.procs r).inbox := by
      rw [h]
      split
      · rcases discard_inbox { (w.procs r) with table := close (w.procs r).table i } v.corr with e | ⟨pre, m0, post, e1, _, e2⟩
        · rw [e]; exact List.Sublist.refl _
        · rw [e2]
          have e1 : (w.procs r).inbox = pre ++ m0 :: post := e1
          rw [e1]; exact List.Sublist.append (List.Sublist.refl _) (List.sublist_cons_self _ _)
      · exact List.Sublist.refl _
    have htb : (w'.procs r).table = close (w.procs r).table i := by
      rw [h]; split
      · rw [discard_table]
      · rfl
    rw [h] at hc
    split at hc
    · rcases discard_discarded _ _ hc with hc | hc
      · exact Or.inl hc
      · right; exact ⟨i, v, ht, hc.symm, htb, hin⟩
    · exact Or.inl hc
  | returned f success user x transOk v hf hfr ht h => rw [h] at hc; exact Or.inl hc

theorem countP_sublist {f : Msg → Bool} {l l' : List Msg} (h : l'.Sublist l) : l'.countP f ≤ l.countP f :=
  h.countP_le

/-- A conversation that is to be discarded has no place in the process. -/
def Disc (w : World) : Prop := ∀ r c, c ∈ (w.procs r).discarded → places c (w.procs r) = 0 ∧ c < w.convs.length

theorem Move.length {srv : Nat → Bool} {w w' : World} {a : Act} (hm : Move srv w a w') : w.convs.length ≤ w'.convs.length := by
  rcases hm.convs with h | ⟨k, h⟩ <;> rw [h] <;> simp

theorem closed_places {w w' : World} (h : One w) {r i : Nat} {v : Val} (ht : (w.procs r).table[i]? = some (some v))
    (h1 : (w'.procs r).table = close (w.procs r).table i)
    (h2 : (w'.procs r).inbox.countP (isRequest v.corr) ≤ (w.procs r).inbox.countP (isRequest v.corr)) :
    places v.corr (w'.procs r) = 0 := by
  have := close_places (c := v.corr) ht h1 h2
  have h3 := h v.corr r
  simp only [beq_self_eq_true, one_true] at this
  omega

theorem Disc.move {srv : Nat → Bool} {w w' : World} {a : Act} (h : Disc w) (hi : Inv w) (hm : Move srv w a w') : Disc w' := by
  intro r c hc
  rcases (hm.loc hi.home r).discarded hc with h' | ⟨i, v, h1, h2, h3, h4⟩
  · obtain ⟨h1, h2⟩ := h r c h'
    refine ⟨?_, Nat.lt_of_lt_of_le h2 hm.length⟩
    rcases hm.places hi.home c r with h3 | ⟨h3, _⟩
    · omega
    · omega
  · subst h2
    refine ⟨closed_places hi.one h1 h3 (countP_sublist h4), ?_⟩
    obtain ⟨k, hk, _⟩ := hi.home.tab r v (mem_of_idx h1)
    exact Nat.lt_of_lt_of_le (lt_of_some hk) hm.length

/-! ### the service that is executed -/

/-- A descriptor that is not the one of an initiator is the one of the service that is executed. -/
structure Fram (w : World) : Prop where
  desc : ∀ r i v, (w.procs r).table[i]? = some (some v) → v.initiator = false →
    (w.procs r).frame = some ⟨v.corr, v.peer, i⟩
  busy : ∀ r f, (w.procs r).frame = some f → (w.procs r).busy = true

theorem idx_set {t : Table} {i j : Nat} {o : Option Val} {v : Val} (h : (t.set i o)[j]? = some (some v)) :
    (j = i ∧ o = some v) ∨ (j ≠ i ∧ t[j]? = some (some v)) := by
  rw [List.getElem?_set] at h
  split at h
  · rename_i e
    split at h
    · left; exact ⟨e.symm, by simpa using h⟩
    · cases h
  · rename_i e; right; exact ⟨fun h => e h.symm, h⟩

theorem idx_close {t : Table} {i j : Nat} {v : Val} (h : (close t i)[j]? = some (some v)) :
    j ≠ i ∧ t[j]? = some (some v) := by
  rcases idx_set h with ⟨_, h⟩ | h
  · cases h
  · exact h

theorem idx_reserve {t : Table} {j : Nat} {v v' : Val} (h : (reserve t v).2[j]? = some (some v')) :
    (j = (reserve t v).1 ∧ v' = v) ∨ t[j]? = some (some v') := by
  rcases reserve_cases t v with ⟨h1, h2⟩ | ⟨h1, h2⟩
  · rw [h2] at h
    rcases idx_set h with ⟨h, h'⟩ | ⟨_, h⟩
    · left; exact ⟨h, by simpa using h'.symm⟩
    · exact Or.inr h
  · rw [h2] at h
    by_cases hj : j < t.length
    · rw [List.getElem?_append_left hj] at h; exact Or.inr h
    · rw [List.getElem?_append_right (by omega)] at h
      have : j - t.length = 0 := by
        apply Classical.byContradiction
        intro hne
        rw [List.getElem?_eq_none (by simp; omega)] at h
        cases h
      rw [this] at h
      left
      refine ⟨by rw [h1]; omega, by simpa using h.symm⟩

theorem Fram.move {srv : Nat → Bool} {w w' : World} {a : Act} (h : Fram w) (hh : Home w) (hm : Move srv w a w') : Fram w' := by
  have key : ∀ r, (∀ i v, (w'.procs r).table[i]? = some (some v) → v.initiator = false →
      (w'.procs r).frame = some ⟨v.corr, v.peer, i⟩) ∧ (∀ f, (w'.procs r).frame = some f → (w'.procs r).busy = true) := by
    intro r
    have hd := h.desc r
    have hb := h.busy r
    cases hm.loc hh r with
    | idle h => rw [h]; exact ⟨hd, hb⟩
    | arrived m h hs => rw [h, arrive_table, arrive_frame, arrive_busy]; exact ⟨hd, hb⟩
    | dropped m rest hs ha hb hc' hi hm h => rw [h]; exact ⟨hd, by assumption⟩
    | began c' src dx x rest hs ha hbu hc' hi hsrc h =>
      rw [h]
      have hn : (w.procs r).frame = none := by
        cases hf : (w.procs r).frame with
        | none => rfl
        | some f => have := hb f hf; rw [hbu] at this; cases this
      refine ⟨?_, fun _ _ => rfl⟩
      intro i v hv hvi
      rcases idx_reserve hv with ⟨h1, h2⟩ | h1
      · subst h2; rw [h1]
      · have := hd i v h1 hvi; rw [hn] at this; cases this
    | gone ib hs h => rw [h]; exact ⟨hd, hb⟩
    | worked b hbf hb' h =>
      rw [h]
      refine ⟨hd, ?_⟩
      intro f hf
      cases b with
      | true => rfl
      | false => have := hbf rfl; rw [this] at hf; cases hf
    | refused t ht h =>
      rw [h]
      refine ⟨?_, hb⟩
      intro i v hv hvi
      rcases ht with ht | ht
      · rw [ht] at hv; exact hd i v hv hvi
      · rw [ht] at hv
        apply hd i v _ hvi
        simp only at hv
        by_cases hj : i < (w.procs r).table.length
        · rw [List.getElem?_append_left hj] at hv; exact hv
        · rw [List.getElem?_append_right (by omega)] at hv
          rcases hz : i - (w.procs r).table.length with _ | z
          · rw [hz] at hv; simp at hv
          · rw [hz] at hv; simp at hv
    | asked q ro x hf hq h =>
      rw [h]
      refine ⟨?_, hb⟩
      intro i v hv hvi
      rcases idx_reserve hv with ⟨h1, h2⟩ | h1
      · subst h2; cases hvi
      · exact hd i v h1 hvi
    | connected i c' pre post hc' hi h => rw [h]; exact ⟨hd, hb⟩
    | sent i x ro v hf ht hdx hn h =>
      rw [h]
      refine ⟨?_, hb⟩
      intro j v' hv hvi
      rcases idx_set hv with ⟨h1, h2⟩ | ⟨_, h1⟩
      · simp only [Option.some.injEq] at h2
        subst h2; subst h1
        exact hd j v ht hvi
      · exact hd j v' h1 hvi
    | ended i v m pre post hf ht hi hm hp h =>
      rw [h]; exact ⟨fun j v' hv hvi => hd j v' (idx_close hv).2 hvi, hb⟩
    | lost i v hf ht h => rw [h]; exact ⟨fun j v' hv hvi => hd j v' (idx_close hv).2 hvi, hb⟩
    | got i v dx u x pre post hf ht hdx hi hp h =>
      rw [h]
      refine ⟨?_, hb⟩
      intro j v' hv hvi
      rcases idx_set hv with ⟨h1, h2⟩ | ⟨_, h1⟩
      · simp only [Option.some.injEq] at h2
        subst h2; subst h1
        exact hd j v ht hvi
      · exact hd j v' h1 hvi
    | disconnected i v hf ht hv h =>
      rw [h]
      have e1 : (if v.duplex = .receive then discard { (w.procs r) with table := close (w.procs r).table i } v.corr
          else { (w.procs r) with table := close (w.procs r).table i }).table = close (w.procs r).table i := by
        split
        · rw [discard_table]
        · rfl
      have e2 : (if v.duplex = .receive then discard { (w.procs r) with table := close (w.procs r).table i } v.corr
          else { (w.procs r) with table := close (w.procs r).table i }).frame = (w.procs r).frame := by
        split
        · rw [discard_frame]
        · rfl
      have e3 : (if v.duplex = .receive then discard { (w.procs r) with table := close (w.procs r).table i } v.corr
          else { (w.procs r) with table := close (w.procs r).table i }).busy = (w.procs r).busy := by
        split
        · rw [discard_busy]
        · rfl
      rw [e1, e2, e3]
      exact ⟨fun j v' hv hvi => hd j v' (idx_close hv).2 hvi, hb⟩
    | returned f success user x transOk v hf hfr ht h =>
      rw [h]
      refine ⟨?_, by intro f hf; cases hf⟩
      intro j v' hv hvi
      obtain ⟨h1, h2⟩ := idx_close hv
      have := hd j v' h2 hvi
      rw [hfr] at this
      simp only [Option.some.injEq] at this
      subst this
      exact absurd rfl h1
  exact ⟨fun r => (key r).1, fun r => (key r).2⟩

/-! ### the request -/

theorem countP_pos_of {f : Msg → Bool} {l : List Msg} {m : Msg} (hm : m ∈ l) (hf : f m = true) : 1 ≤ l.countP f :=
  List.countP_pos_iff.2 ⟨m, hm, hf⟩

theorem table_pos_of {f : Option Val → Bool} {l : Table} {m : Option Val} (hm : m ∈ l) (hf : f m = true) : 1 ≤ l.countP f :=
  List.countP_pos_iff.2 ⟨m, hm, hf⟩

theorem calling_free {srv : Bool} {p : Proc} (h : p.free srv = true) : p.calling = none ∧ p.alive = true := by
  unfold Proc.free at h
  simp only [Bool.and_eq_true, Option.isNone_iff_eq_none] at h
  exact ⟨h.1.2, h.1.1⟩

theorem Loc.alive {srv : Nat → Bool} {w w' : World} {r : Nat} (h : Loc srv w w' r)
    (ha : (w'.procs r).alive = true) : (w.procs r).alive = true := by
  cases h with
  | idle h => rw [h] at ha; exact ha
  | arrived m h hs => rw [h, arrive_alive] at ha; exact ha
  | disconnected i v hf ht hv h => exact (calling_free hf).2
  | gone ib hs h => rw [h] at ha; cases ha
  | dropped m rest hs ha hb hc' hi hm h => exact ha
  | began c' src dx x rest hs ha hb hc' hi hsrc h => exact ha
  | worked b hb hb' h => rw [h] at ha; exact ha
  | refused t ht h => rw [h] at ha; exact ha
  | asked q ro x hf hq h => rw [h] at ha; exact ha
  | connected i c' pre post hc' hi h => rw [h] at ha; exact ha
  | sent i x ro v hf ht hd hn h => rw [h] at ha; exact ha
  | ended i v m pre post hf ht hi hm hp h => rw [h] at ha; exact ha
  | lost i v hf ht h => rw [h] at ha; exact ha
  | got i v dx u x pre post hf ht hd hi hp h => rw [h] at ha; exact ha
  | returned f success user x transOk v hf hfr ht h => rw [h] at ha; exact ha

/-- A process that is within `tpconnect` stays there until the reply has come. -/
theorem Loc.calling {srv : Nat → Bool} {w w' : World} {r : Nat} (h : Loc srv w w' r) {i c : Nat}
    (hc : (w.procs r).calling = some (i, c)) :
    (w'.procs r).calling = some (i, c) ∨ .reply c ∈ (w.procs r).inbox := by
  cases h with
  | idle h => rw [h]; exact Or.inl hc
  | arrived m h hs => rw [h, arrive_calling]; exact Or.inl hc
  | disconnected j v hf ht hv h => rw [(calling_free hf).1] at hc; cases hc
  | gone ib hs h => rw [h]; exact Or.inl hc
  | dropped m rest hs ha hb hc' hi hm h => rw [hc'] at hc; cases hc
  | began c' src dx x rest hs ha hb hc' hi hsrc h => rw [hc'] at hc; cases hc
  | worked b hb hb' h => rw [h]; exact Or.inl hc
  | refused t ht h => rw [h]; exact Or.inl hc
  | asked q ro x hf hq h => rw [(calling_free hf).1] at hc; cases hc
  | connected j c' pre post hc' hi h =>
    rw [hc'] at hc
    simp only [Option.some.injEq, Prod.mk.injEq] at hc
    obtain ⟨_, rfl⟩ := hc
    right
    rw [hi]; simp
  | sent j x ro v hf ht hd hn h => rw [(calling_free hf).1] at hc; cases hc
  | ended j v m pre post hf ht hi hm hp h => rw [(calling_free hf).1] at hc; cases hc
  | lost j v hf ht h => rw [(calling_free hf).1] at hc; cases hc
  | got j v dx u x pre post hf ht hd hi hp h => rw [(calling_free hf).1] at hc; cases hc
  | returned f success user x transOk v hf hfr ht h => rw [(calling_free hf).1] at hc; cases hc

/-- A request that has not been handled: nothing else has happened in the conversation. -/
structure Early (w : World) (c src r : Nat) : Prop where
  pend : pend c (w.procs r) = []
  disc : .disconnected c ∉ w.log
  start : ∀ b x, .started c b x ∉ w.log
  wait : (w.procs src).alive = true → ∃ i, (w.procs src).calling = some (i, c)

def Req (w : World) : Prop := ∀ r c src dx x, .request c src dx x ∈ (w.procs r).inbox → Early w c src r

theorem Req.move {srv : Nat → Bool} {w w' : World} {a : Act} (h : Req w) (hi : Inv w) (hk : Known w) (hsr : Src w)
    (hm : Move srv w a w') : Req w' := by
  intro r c src dx x hreq
  rcases (hm.loc hi.home r).mem hreq with hold | hnew
  · have he := h r c src dx x hold
    obtain ⟨k, hk', h1, h2, _⟩ := hi.home.msg r _ hold
    have hk' : w.convs[c]? = some k := hk'
    have hfree : ∀ (v : Val) (p : Nat), some v ∈ (w.procs p).table → v.corr = c → (w.procs p).free (srv p) = true → False := by
      intro v p hv hvc hf
      obtain ⟨k2, hk2, _, h3⟩ := hi.home.tab p v hv
      rw [hvc, hk'] at hk2
      simp only [Option.some.injEq] at hk2
      subst hk2
      rcases h3 with ⟨_, h3, _⟩ | ⟨_, h3, _⟩
      · subst h2
        rw [h3] at hf
        obtain ⟨i, hc⟩ := he.wait (calling_free hf).2
        rw [(calling_free hf).1] at hc
        cases hc
      · rw [← h1] at h3
        subst h3
        have := hi.one c p
        unfold places at this
        have a1 := countP_pos_of (f := isRequest c) hold (by simp [isRequest])
        have a2 := table_pos_of (f := isOpen c) hv (by simp [isOpen, hvc])
        omega
    refine ⟨?_, ?_, ?_, ?_⟩
    · have hp : Pair w c r k.initiator := ⟨k, hk', Or.inr ⟨h1, rfl⟩⟩
      have := he.pend
      cases hm.flow hi hp with
      | calm h1 hl => rw [h1]; exact this
      | read y h1 hg hs => rw [this] at h1; cases h1
      | write y v hv hc hd hf hg hs h1 => exact absurd (hfree v _ hv hc hf) id
      | over h1 hl _ => rw [this] at h1; exact List.sublist_nil.1 h1
      | dropped h1 hl => rw [this] at h1; exact List.sublist_nil.1 h1
    · intro hd
      rcases hm.entry hi.home hd with hd | hd
      · exact he.disc hd
      · cases hd with
        | disconnected p i v hf ht hi' => exact hfree v p (mem_of_idx ht) rfl hf
    · intro b y hd
      rcases hm.entry hi.home hd with hd | hd
      · exact he.start b y hd
      · cases hd with
        | started q _ src' dx' _ rest hin hin' =>
          have hq : q = r := by
            obtain ⟨k2, hk2, h3, _⟩ := hi.home.msg q (.request c src' dx' y) (by rw [hin]; exact List.mem_cons_self)
            have hk2 : w.convs[c]? = some k2 := hk2
            rw [hk'] at hk2
            simp only [Option.some.injEq] at hk2
            rw [h3, h1, hk2]
          subst hq
          rw [hin'] at hreq
          have a1 := countP_pos_of (f := isRequest c) hreq (by simp [isRequest])
          have a2 := hi.one c q
          unfold places at a2
          rw [hin, countP_cons'] at a2
          simp only [isRequest, beq_self_eq_true, one_true] at a2
          omega
    · intro ha
      have ha0 := (hm.loc hi.home src).alive ha
      obtain ⟨i, hc⟩ := he.wait ha0
      rcases (hm.loc hi.home src).calling hc with h' | h'
      · exact ⟨i, h'⟩
      · exfalso
        obtain ⟨b, y, hst⟩ := hsr src _ h'
        exact he.start b y hst
  · cases hnew with
    | request _ so ro _ hf hr hk' hc hin hl =>
      have hnone : w.convs[w.convs.length]? = none := by simp
      refine ⟨?_, ?_, ?_, fun _ => hc⟩
      · unfold Conv.pend
        rw [List.filterMap_eq_nil_iff]
        intro m hm'
        rcases (hm.loc hi.home r).mem hm' with h' | h'
        · obtain ⟨k, hk, _⟩ := hi.home.msg r m h'
          apply dataOf_corr
          intro e
          rw [e, hnone] at hk
          cases hk
        · cases h' with
          | data p v dx' y hf' ht hd hv hn hl' => rw [hl] at hl'; simp at hl'
          | failed c q hl' => rw [hl] at hl'; simp at hl'
          | returned q f success user y transOk hfr hl' =>
            cases success <;> cases transOk <;> rfl
          | _ => rfl
      · rw [hl]
        intro hd
        simp only [List.mem_cons, reduceCtorEq, false_or] at hd
        exact absurd (hk _ hd _ rfl) (Nat.lt_irrefl _)
      · intro b y
        rw [hl]
        intro hd
        simp only [List.mem_cons, reduceCtorEq, false_or] at hd
        exact absurd (hk _ hd _ rfl) (Nat.lt_irrefl _)

end Casual.Conv
