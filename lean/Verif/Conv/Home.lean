import Verif.Conv.Move
/-!
Where descriptors and messages of a conversation can be, and how many.
-/
namespace Casual.Conv

/-! ### the world after a step -/

def arrive (p : Proc) (m : Msg) : Proc :=
  if p.alive then
    if m.corr ∈ p.discarded then { p with discarded := p.discarded.erase m.corr }
    else { p with inbox := p.inbox ++ [m] }
  else p

theorem deliver_eq (w : World) (q : Nat) (m : Msg) : w.deliver q m = w.set q (arrive (w.procs q) m) := by
  unfold World.deliver arrive
  simp only
  split
  · split <;> rfl
  · rw [set_self]

theorem procs_deliver (w : World) (q : Nat) (m : Msg) (r : Nat) :
    (w.deliver q m).procs r = if r = q then arrive (w.procs q) m else w.procs r := by
  rw [deliver_eq]; rfl

@[simp] theorem procs_note (w : World) (e : Entry) : (w.note e).procs = w.procs := rfl
@[simp] theorem convs_note (w : World) (e : Entry) : (w.note e).convs = w.convs := rfl
@[simp] theorem log_note (w : World) (e : Entry) : (w.note e).log = e :: w.log := rfl
@[simp] theorem convs_set (w : World) (p : Nat) (x : Proc) : (w.set p x).convs = w.convs := rfl
@[simp] theorem log_set (w : World) (p : Nat) (x : Proc) : (w.set p x).log = w.log := rfl
@[simp] theorem convs_deliver (w : World) (q : Nat) (m : Msg) : (w.deliver q m).convs = w.convs := by
  rw [deliver_eq]; rfl
@[simp] theorem log_deliver (w : World) (q : Nat) (m : Msg) : (w.deliver q m).log = w.log := by
  rw [deliver_eq]; rfl

@[simp] theorem arrive_table (p : Proc) (m : Msg) : (arrive p m).table = p.table := by
  unfold arrive; split <;> (try split) <;> rfl
@[simp] theorem arrive_frame (p : Proc) (m : Msg) : (arrive p m).frame = p.frame := by
  unfold arrive; split <;> (try split) <;> rfl
@[simp] theorem arrive_calling (p : Proc) (m : Msg) : (arrive p m).calling = p.calling := by
  unfold arrive; split <;> (try split) <;> rfl
@[simp] theorem arrive_busy (p : Proc) (m : Msg) : (arrive p m).busy = p.busy := by
  unfold arrive; split <;> (try split) <;> rfl
@[simp] theorem arrive_alive (p : Proc) (m : Msg) : (arrive p m).alive = p.alive := by
  unfold arrive; split <;> (try split) <;> rfl

theorem arrive_inbox (p : Proc) (m : Msg) :
    (arrive p m).inbox = p.inbox ∨ ((arrive p m).inbox = p.inbox ++ [m] ∧ p.alive = true ∧ m.corr ∉ p.discarded) := by
  unfold arrive
  split
  · rename_i ha
    split
    · left; rfl
    · rename_i hd
      right
      exact ⟨rfl, ha, hd⟩
  · left; rfl

theorem arrive_discarded (p : Proc) (m : Msg) {c : Nat} (h : c ∈ (arrive p m).discarded) : c ∈ p.discarded := by
  unfold arrive at h
  split at h
  · split at h
    · exact List.mem_of_mem_erase h
    · exact h
  · exact h

theorem mem_arrive {p : Proc} {m m' : Msg} (h : m' ∈ (arrive p m).inbox) : m' ∈ p.inbox ∨ m' = m := by
  rcases arrive_inbox p m with e | ⟨e, _, _⟩
  · rw [e] at h; exact Or.inl h
  · rw [e] at h
    rcases List.mem_append.1 h with h | h
    · exact Or.inl h
    · exact Or.inr (by simpa using h)

theorem arrive_here {p : Proc} {m : Msg} (ha : p.alive = true) (hd : m.corr ∉ p.discarded) :
    (arrive p m).inbox = p.inbox ++ [m] := by
  unfold arrive
  rw [if_pos ha, if_neg hd]

@[simp] theorem discard_table (p : Proc) (c : Nat) : (discard p c).table = p.table := by
  unfold discard; split <;> (try split) <;> rfl
@[simp] theorem discard_frame (p : Proc) (c : Nat) : (discard p c).frame = p.frame := by
  unfold discard; split <;> (try split) <;> rfl
@[simp] theorem discard_calling (p : Proc) (c : Nat) : (discard p c).calling = p.calling := by
  unfold discard; split <;> (try split) <;> rfl
@[simp] theorem discard_busy (p : Proc) (c : Nat) : (discard p c).busy = p.busy := by
  unfold discard; split <;> (try split) <;> rfl
@[simp] theorem discard_alive (p : Proc) (c : Nat) : (discard p c).alive = p.alive := by
  unfold discard; split <;> (try split) <;> rfl

theorem discard_inbox (p : Proc) (c : Nat) :
    (discard p c).inbox = p.inbox ∨
      ∃ pre m post, p.inbox = pre ++ m :: post ∧ m.corr = c ∧ (discard p c).inbox = pre ++ post := by
  unfold discard
  split
  · rename_i m rest h
    obtain ⟨pre, post, e1, e2, e3, _⟩ := takeFirst_some h
    right
    exact ⟨pre, m, post, e1, by simpa using e3, e2⟩
  · split
    · left; rfl
    · left; rfl

theorem discard_discarded (p : Proc) (c : Nat) {c' : Nat} (h : c' ∈ (discard p c).discarded) :
    c' ∈ p.discarded ∨ c' = c := by
  unfold discard at h
  split at h
  · exact Or.inl h
  · split at h
    · exact Or.inl h
    · rcases List.mem_append.1 h with h | h
      · exact Or.inl h
      · exact Or.inr (by simpa using h)

/-! ### home -/

/-- The descriptor belongs where it is. -/
def HomeT (cs : List Parties) (r : Nat) (v : Val) : Prop :=
  ∃ k, cs[v.corr]? = some k ∧ v.duplex ≠ .terminated ∧
    ((v.initiator = true ∧ r = k.initiator ∧ v.peer = k.subordinate) ∨
     (v.initiator = false ∧ r = k.subordinate ∧ v.peer = k.initiator))

/-- The message belongs where it is. -/
def HomeM (cs : List Parties) (r : Nat) (m : Msg) : Prop :=
  ∃ k, cs[m.corr]? = some k ∧
    match m with
    | .request _ src dx _ => r = k.subordinate ∧ src = k.initiator ∧ dx ≠ .terminated
    | .reply _ => r = k.initiator
    | .data _ _ code _ _ => (r = k.initiator ∨ r = k.subordinate) ∧ (code ≠ .absent → r = k.initiator)
    | .disconnect _ => r = k.subordinate
    | .service _ => r = k.initiator

structure Home (w : World) : Prop where
  par : ∀ k ∈ w.convs, k.initiator ≠ k.subordinate
  tab : ∀ r v, some v ∈ (w.procs r).table → HomeT w.convs r v
  msg : ∀ r m, m ∈ (w.procs r).inbox → HomeM w.convs r m
  frm : ∀ r f, (w.procs r).frame = some f → ∃ k, w.convs[f.corr]? = some k ∧ r = k.subordinate ∧ f.peer = k.initiator

theorem HomeT.mono {cs : List Parties} {r : Nat} {v : Val} (h : HomeT cs r v) (k' : Parties) :
    HomeT (cs ++ [k']) r v := by
  obtain ⟨k, h1, h2⟩ := h
  refine ⟨k, ?_, h2⟩
  rw [List.getElem?_append_left (List.getElem?_eq_some_iff.1 h1).1]
  exact h1

theorem HomeM.mono {cs : List Parties} {r : Nat} {m : Msg} (h : HomeM cs r m) (k' : Parties) :
    HomeM (cs ++ [k']) r m := by
  obtain ⟨k, h1, h2⟩ := h
  refine ⟨k, ?_, h2⟩
  rw [List.getElem?_append_left (List.getElem?_eq_some_iff.1 h1).1]
  exact h1

theorem mem_of_idx {t : Table} {i : Nat} {v : Val} (h : t[i]? = some (some v)) : some v ∈ t :=
  List.mem_of_getElem? h

theorem mem_set {t : Table} {i : Nat} {o : Option Val} {v : Val} (h : some v ∈ t.set i o) :
    some v ∈ t ∨ o = some v := by
  rcases List.mem_or_eq_of_mem_set h with h | h
  · exact Or.inl h
  · exact Or.inr h.symm

theorem mem_close {t : Table} {i : Nat} {v : Val} (h : some v ∈ close t i) : some v ∈ t := by
  rcases mem_set h with h | h
  · exact h
  · cases h

theorem mem_reserve {t : Table} {v v' : Val} (h : some v' ∈ (reserve t v).2) : some v' ∈ t ∨ v' = v := by
  rcases reserve_cases t v with ⟨_, e⟩ | ⟨_, e⟩
  · rw [e] at h
    rcases mem_set h with h | h
    · exact Or.inl h
    · exact Or.inr (by simpa using h.symm)
  · rw [e] at h
    rcases List.mem_append.1 h with h | h
    · exact Or.inl h
    · exact Or.inr (by simpa using h)

theorem mem_mid {pre post : List Msg} {m m' : Msg} (h : m' ∈ pre ++ post) : m' ∈ pre ++ m :: post := by
  rcases List.mem_append.1 h with h | h
  · exact List.mem_append_left _ h
  · exact List.mem_append_right _ (List.mem_cons_of_mem _ h)

/-- The same conversations, and nothing new except what belongs there. -/
theorem Home.same {w w' : World} (h : Home w) (hc : w'.convs = w.convs)
    (ht : ∀ r v, some v ∈ (w'.procs r).table → some v ∈ (w.procs r).table ∨ HomeT w.convs r v)
    (hm : ∀ r m, m ∈ (w'.procs r).inbox → m ∈ (w.procs r).inbox ∨ HomeM w.convs r m)
    (hf : ∀ r f, (w'.procs r).frame = some f → (w.procs r).frame = some f ∨
      ∃ k, w.convs[f.corr]? = some k ∧ r = k.subordinate ∧ f.peer = k.initiator) : Home w' := by
  refine ⟨by rw [hc]; exact h.par, ?_, ?_, ?_⟩
  · intro r v hv
    rw [hc]
    rcases ht r v hv with h' | h'
    · exact h.tab r v h'
    · exact h'
  · intro r m hv
    rw [hc]
    rcases hm r m hv with h' | h'
    · exact h.msg r m h'
    · exact h'
  · intro r f hv
    rw [hc]
    rcases hf r f hv with h' | h'
    · exact h.frm r f h'
    · exact h'

theorem Home.move {srv : Nat → Bool} {w w' : World} {a : Act} (h : Home w) (hm : Move srv w a w') : Home w' := by
  cases hm with
  | same => exact h
  | drop q good m rest hs ha hb hc hi hm =>
    refine h.same rfl ?_ ?_ ?_
    · intro r v hv
      rw [procs_set] at hv
      split at hv <;> first | (rename_i e; subst e; exact Or.inl hv) | exact Or.inl hv
    · intro r m hv
      rw [procs_set] at hv
      split at hv
      · rename_i e; subst e; left; rw [hi]; exact List.mem_cons_of_mem _ hv
      · exact Or.inl hv
    · intro r f hv
      rw [procs_set] at hv
      split at hv <;> first | (rename_i e; subst e; exact Or.inl hv) | exact Or.inl hv
  | started q c src dx x rest hs ha hb hc hi hu =>
    obtain ⟨k, hk, h1, h2, h3⟩ := h.msg q (.request c src dx x) (by rw [hi]; exact List.mem_cons_self)
    have hk : w.convs[c]? = some k := hk
    refine h.same (by simp) ?_ ?_ ?_
    · intro r v hv
      simp only [procs_note, procs_deliver, procs_set] at hv
      split at hv
      · rename_i e; subst e
        rw [arrive_table] at hv
        split at hv
        · rename_i e; subst e
          rcases mem_reserve hv with h' | h'
          · exact Or.inl h'
          · right; subst h'; exact ⟨k, hk, h3, Or.inr ⟨rfl, h1, h2⟩⟩
        · exact Or.inl hv
      · split at hv
        · rename_i e; subst e
          rcases mem_reserve hv with h' | h'
          · exact Or.inl h'
          · right; subst h'; exact ⟨k, hk, h3, Or.inr ⟨rfl, h1, h2⟩⟩
        · exact Or.inl hv
    · intro r m hv
      simp only [procs_note, procs_deliver, procs_set] at hv
      have old : ∀ r', m ∈ (if r' = q then ({ (w.procs q) with inbox := rest, table := (reserve (w.procs q).table ⟨c, src, dx, false⟩).2, busy := true, frame := some ⟨c, src, (reserve (w.procs q).table ⟨c, src, dx, false⟩).1⟩ } : Proc) else w.procs r').inbox → m ∈ (w.procs r').inbox := by
        intro r' hv
        split at hv
        · rename_i e; subst e; rw [hi]; exact List.mem_cons_of_mem _ hv
        · exact hv
      split at hv
      · rename_i e; subst e
        rcases mem_arrive hv with hv | hv
        · exact Or.inl (old _ hv)
        · right; subst hv; exact ⟨k, hk, h2⟩
      · exact Or.inl (old _ hv)
    · intro r f hv
      simp only [procs_note, procs_deliver, procs_set] at hv
      have old : ∀ r', (if r' = q then ({ (w.procs q) with inbox := rest, table := (reserve (w.procs q).table ⟨c, src, dx, false⟩).2, busy := true, frame := some ⟨c, src, (reserve (w.procs q).table ⟨c, src, dx, false⟩).1⟩ } : Proc) else w.procs r').frame = some f → (w.procs r').frame = some f ∨ ∃ k, w.convs[f.corr]? = some k ∧ r' = k.subordinate ∧ f.peer = k.initiator := by
        intro r' hv
        split at hv
        · rename_i e; subst e
          right
          simp only [Option.some.injEq] at hv
          subst hv
          exact ⟨k, hk, h1, h2⟩
        · exact Or.inl hv
      split at hv
      · rename_i e; subst e
        rw [arrive_frame] at hv
        exact old _ hv
      · exact old _ hv
  | orphan q c src dx x rest hs ha hb hi hu =>
    refine h.same rfl ?_ ?_ ?_
    · intro r v hv
      simp only [procs_note, procs_set] at hv
      split at hv <;> first | (rename_i e; subst e; exact Or.inl hv) | exact Or.inl hv
    · intro r m hv
      simp only [procs_note, procs_set] at hv
      split at hv
      · rename_i e; subst e; left; rw [hi]; exact List.mem_cons_of_mem _ hv
      · exact Or.inl hv
    · intro r f hv
      simp only [procs_note, procs_set] at hv
      split at hv <;> first | (rename_i e; subst e; exact Or.inl hv) | exact Or.inl hv
  | failed q c src dx x rest hs ha hb hi =>
    obtain ⟨k, hk, h1, h2, h3⟩ := h.msg q (.request c src dx x) (by rw [hi]; exact List.mem_cons_self)
    have hk : w.convs[c]? = some k := hk
    refine h.same (by simp) ?_ ?_ ?_
    · intro r v hv
      simp only [procs_note, procs_deliver, procs_set] at hv
      split at hv
      · rename_i e; subst e; exact Or.inl hv
      · rename_i e
        split at hv
        · rename_i e2; subst e2
          rw [if_neg e, arrive_table] at hv; exact Or.inl hv
        · exact Or.inl hv
    · intro r m hv
      simp only [procs_note, procs_deliver, procs_set] at hv
      split at hv
      · rename_i e; subst e; left; rw [hi]; exact List.mem_cons_of_mem _ hv
      · rename_i e
        split at hv
        · rename_i e2; subst e2
          rw [if_neg e] at hv
          rcases mem_arrive hv with hv | hv
          · exact Or.inl hv
          · right; subst hv; exact ⟨k, hk, Or.inl h2, fun _ => h2⟩
        · exact Or.inl hv
    · intro r f hv
      simp only [procs_note, procs_deliver, procs_set] at hv
      split at hv
      · rename_i e; subst e; exact Or.inl hv
      · rename_i e
        split at hv
        · rename_i e2; subst e2
          rw [if_neg e, arrive_frame] at hv; exact Or.inl hv
        · exact Or.inl hv
  | begin q hs ha hb =>
    refine h.same rfl ?_ ?_ ?_ <;> intro r v hv <;> rw [procs_set] at hv <;> split at hv <;>
      first | (rename_i e; subst e; exact Or.inl hv) | exact Or.inl hv
  | finish q hs hf hn =>
    refine h.same rfl ?_ ?_ ?_ <;> intro r v hv <;> rw [procs_set] at hv <;> split at hv <;>
      first | (rename_i e; subst e; exact Or.inl hv) | exact Or.inl hv
  | refused p target so ro x t ht =>
    refine h.same rfl ?_ ?_ ?_
    · intro r v hv
      rw [procs_set] at hv
      split at hv
      · rename_i e; subst e
        left
        rcases ht with rfl | rfl
        · exact hv
        · simpa using hv
      · exact Or.inl hv
    · intro r v hv
      rw [procs_set] at hv
      split at hv <;> first | (rename_i e; subst e; exact Or.inl hv) | exact Or.inl hv
    · intro r v hv
      rw [procs_set] at hv
      split at hv <;> first | (rename_i e; subst e; exact Or.inl hv) | exact Or.inl hv
  | asked p q so ro x hf hq hu hx =>
    have hk : (w.convs ++ [(⟨p, q⟩ : Parties)])[w.convs.length]? = some ⟨p, q⟩ := by simp
    refine ⟨?_, ?_, ?_, ?_⟩
    · intro k hk
      simp only [convs_note, convs_deliver] at hk
      rcases List.mem_append.1 hk with hk | hk
      · exact h.par k hk
      · rw [List.mem_singleton] at hk; subst hk; exact fun e => hq e.symm
    · intro r v hv
      simp only [procs_note, procs_deliver, procs_set, convs_note, convs_deliver] at hv ⊢
      have old : ∀ r', some v ∈ (if r' = p then ({ (w.procs p) with table := (reserve (w.procs p).table ⟨w.convs.length, q, if ro then .receive else .send, true⟩).2, calling := some ((reserve (w.procs p).table ⟨w.convs.length, q, if ro then .receive else .send, true⟩).1, w.convs.length) } : Proc) else w.procs r').table → HomeT (w.convs ++ [(⟨p, q⟩ : Parties)]) r' v := by
        intro r' hv
        split at hv
        · rename_i e; subst e
          rcases mem_reserve hv with h' | h'
          · exact (h.tab _ v h').mono _
          · subst h'; exact ⟨⟨r', q⟩, hk, by cases ro <;> simp, Or.inl ⟨rfl, rfl, rfl⟩⟩
        · exact (h.tab _ v hv).mono _
      split at hv
      · rename_i e; subst e; rw [arrive_table] at hv; exact (h.tab _ v hv).mono _
      · exact old _ hv
    · intro r m hv
      simp only [procs_note, procs_deliver, procs_set, convs_note, convs_deliver] at hv ⊢
      split at hv
      · rename_i e; subst e
        rcases mem_arrive hv with hv | hv
        · exact (h.msg _ m hv).mono _
        · subst hv; exact ⟨⟨p, r⟩, hk, rfl, rfl, by cases ro <;> simp⟩
      · split at hv
        · rename_i e; subst e; exact (h.msg _ m hv).mono _
        · exact (h.msg _ m hv).mono _
    · intro r f hv
      simp only [procs_note, procs_deliver, procs_set, convs_note, convs_deliver] at hv ⊢
      have old : (w.procs r).frame = some f := by
        split at hv
        · rename_i e; subst e
          rw [arrive_frame] at hv; exact hv
        · split at hv
          · rename_i e; subst e; exact hv
          · exact hv
      obtain ⟨k, h1, h2⟩ := h.frm r f old
      refine ⟨k, ?_, h2⟩
      rw [List.getElem?_append_left (List.getElem?_eq_some_iff.1 h1).1]
      exact h1
  | connected p i c pre post ha hc hi =>
    refine h.same rfl ?_ ?_ ?_
    · intro r v hv
      simp only [procs_note, procs_set] at hv
      split at hv <;> first | (rename_i e; subst e; exact Or.inl hv) | exact Or.inl hv
    · intro r m hv
      simp only [procs_note, procs_set] at hv
      split at hv
      · rename_i e; subst e; left; rw [hi]; exact mem_mid hv
      · exact Or.inl hv
    · intro r f hv
      simp only [procs_note, procs_set] at hv
      split at hv <;> first | (rename_i e; subst e; exact Or.inl hv) | exact Or.inl hv
  | sent p d x ro v hf ht hd hn hu =>
    obtain ⟨k, hk, h1, h2⟩ := h.tab p v (mem_of_idx ht)
    refine h.same (by simp) ?_ ?_ ?_
    · intro r v' hv
      simp only [procs_note, procs_deliver, procs_set] at hv
      have old : ∀ r', some v' ∈ (if r' = p then ({ (w.procs p) with table := (w.procs p).table.set d.toNat (some { v with duplex := if ro then Duplex.receive else .send }) } : Proc) else w.procs r').table → some v' ∈ (w.procs r').table ∨ HomeT w.convs r' v' := by
        intro r' hv
        split at hv
        · rename_i e; subst e
          rcases mem_set hv with h' | h'
          · exact Or.inl h'
          · right
            simp only [Option.some.injEq] at h'
            subst h'
            exact ⟨k, hk, by cases ro <;> simp, h2⟩
        · exact Or.inl hv
      split at hv
      · rename_i e; subst e; rw [arrive_table] at hv; exact old _ hv
      · exact old _ hv
    · intro r m hv
      simp only [procs_note, procs_deliver, procs_set] at hv
      have old : ∀ r', m ∈ (if r' = p then ({ (w.procs p) with table := (w.procs p).table.set d.toNat (some { v with duplex := if ro then Duplex.receive else .send }) } : Proc) else w.procs r').inbox → m ∈ (w.procs r').inbox := by
        intro r' hv
        split at hv
        · rename_i e; subst e; exact hv
        · exact hv
      split at hv
      · rename_i e; subst e
        rcases mem_arrive hv with hv | hv
        · exact Or.inl (old _ hv)
        · right; subst hv
          refine ⟨k, hk, ?_, by intro h; exact absurd rfl h⟩
          rcases h2 with ⟨_, _, h2⟩ | ⟨_, _, h2⟩
          · exact Or.inr h2
          · exact Or.inl h2
      · exact Or.inl (old _ hv)
    · intro r f hv
      simp only [procs_note, procs_deliver, procs_set] at hv
      have old : ∀ r', (if r' = p then ({ (w.procs p) with table := (w.procs p).table.set d.toNat (some { v with duplex := if ro then Duplex.receive else .send }) } : Proc) else w.procs r').frame = some f → (w.procs r').frame = some f := by
        intro r' hv
        split at hv
        · rename_i e; subst e; exact hv
        · exact hv
      split at hv
      · rename_i e; subst e; rw [arrive_frame] at hv; exact Or.inl (old _ hv)
      · exact Or.inl (old _ hv)
  | ended a p d v m pre post hact hf ht hi hm hp =>
    refine h.same rfl ?_ ?_ ?_
    · intro r v' hv
      simp only [procs_note, procs_set] at hv
      split at hv
      · rename_i e; subst e; exact Or.inl (mem_close hv)
      · exact Or.inl hv
    · intro r m' hv
      simp only [procs_note, procs_set] at hv
      split at hv
      · rename_i e; subst e; left; rw [hi]; exact mem_mid hv
      · exact Or.inl hv
    · intro r f hv
      simp only [procs_note, procs_set] at hv
      split at hv <;> first | (rename_i e; subst e; exact Or.inl hv) | exact Or.inl hv
  | lost p d a v hact hf ht hu =>
    refine h.same rfl ?_ ?_ ?_
    · intro r v' hv
      simp only [procs_note, procs_set] at hv
      split at hv
      · rename_i e; subst e; exact Or.inl (mem_close hv)
      · exact Or.inl hv
    · intro r m' hv
      simp only [procs_note, procs_set] at hv
      split at hv <;> first | (rename_i e; subst e; exact Or.inl hv) | exact Or.inl hv
    · intro r f hv
      simp only [procs_note, procs_set] at hv
      split at hv <;> first | (rename_i e; subst e; exact Or.inl hv) | exact Or.inl hv
  | got p d nb v dx u x pre post hf ht hd hi hp hn =>
    obtain ⟨k, hk, h1, h2⟩ := h.tab p v (mem_of_idx ht)
    refine h.same rfl ?_ ?_ ?_
    · intro r v' hv
      simp only [procs_note, procs_set] at hv
      split at hv
      · rename_i e; subst e
        rcases mem_set hv with h' | h'
        · exact Or.inl h'
        · right
          simp only [Option.some.injEq] at h'
          subst h'
          refine ⟨k, hk, ?_, h2⟩
          simp only
          split <;> simp
      · exact Or.inl hv
    · intro r m' hv
      simp only [procs_note, procs_set] at hv
      split at hv
      · rename_i e; subst e; left; rw [hi]; exact mem_mid hv
      · exact Or.inl hv
    · intro r f hv
      simp only [procs_note, procs_set] at hv
      split at hv <;> first | (rename_i e; subst e; exact Or.inl hv) | exact Or.inl hv
  | disconnected p d v hf ht hv hu =>
    obtain ⟨k, hk, h1, h2⟩ := h.tab p v (mem_of_idx ht)
    have h2 : p = k.initiator ∧ v.peer = k.subordinate := by
      rcases h2 with ⟨_, h2⟩ | ⟨h2, _⟩
      · exact h2
      · rw [hv] at h2; cases h2
    refine h.same (by simp) ?_ ?_ ?_
    · intro r v' hv'
      simp only [procs_note, procs_deliver, procs_set] at hv'
      have old : ∀ r', some v' ∈ (if r' = p then (if v.duplex = .receive then discard { (w.procs p) with table := close (w.procs p).table d.toNat } v.corr else { (w.procs p) with table := close (w.procs p).table d.toNat }) else w.procs r').table → some v' ∈ (w.procs r').table := by
        intro r' hv
        split at hv
        · rename_i e; subst e
          split at hv
          · rw [discard_table] at hv; exact mem_close hv
          · exact mem_close hv
        · exact hv
      split at hv'
      · rename_i e; subst e; rw [arrive_table] at hv'; exact Or.inl (old _ hv')
      · exact Or.inl (old _ hv')
    · intro r m hv'
      simp only [procs_note, procs_deliver, procs_set] at hv'
      have old : ∀ r', m ∈ (if r' = p then (if v.duplex = .receive then discard { (w.procs p) with table := close (w.procs p).table d.toNat } v.corr else { (w.procs p) with table := close (w.procs p).table d.toNat }) else w.procs r').inbox → m ∈ (w.procs r').inbox := by
        intro r' hv
        split at hv
        · rename_i e; subst e
          split at hv
          · rcases discard_inbox { (w.procs r') with table := close (w.procs r').table d.toNat } v.corr with e | ⟨pre, m0, post, e1, _, e2⟩
            · rw [e] at hv; exact hv
            · rw [e2] at hv
              have e1 : (w.procs r').inbox = pre ++ m0 :: post := e1
              rw [e1]; exact mem_mid hv
          · exact hv
        · exact hv
      split at hv'
      · rename_i e; subst e
        rcases mem_arrive hv' with hv' | hv'
        · exact Or.inl (old _ hv')
        · right; subst hv'; exact ⟨k, hk, h2.2⟩
      · exact Or.inl (old _ hv')
    · intro r f hv'
      simp only [procs_note, procs_deliver, procs_set] at hv'
      have old : ∀ r', (if r' = p then (if v.duplex = .receive then discard { (w.procs p) with table := close (w.procs p).table d.toNat } v.corr else { (w.procs p) with table := close (w.procs p).table d.toNat }) else w.procs r').frame = some f → (w.procs r').frame = some f := by
        intro r' hv
        split at hv
        · rename_i e; subst e
          split at hv
          · rw [discard_frame] at hv; exact hv
          · exact hv
        · exact hv
      split at hv'
      · rename_i e; subst e; rw [arrive_frame] at hv'; exact Or.inl (old _ hv')
      · exact Or.inl (old _ hv')
  | returned q f success user x transOk v hf hfr hu hl =>
    obtain ⟨k, hk, h1, h2⟩ := h.frm q f hfr
    refine h.same (by simp) ?_ ?_ ?_
    · intro r v' hv
      simp only [procs_set, procs_note, procs_deliver] at hv
      split at hv
      · rename_i e; subst e; exact Or.inl (mem_close hv)
      · split at hv
        · rename_i e; subst e; rw [arrive_table] at hv; exact Or.inl hv
        · exact Or.inl hv
    · intro r m hv
      simp only [procs_set, procs_note, procs_deliver] at hv
      split at hv
      · rename_i e; subst e; exact Or.inl hv
      · split at hv
        · rename_i e; subst e
          rcases mem_arrive hv with hv | hv
          · exact Or.inl hv
          · right; subst hv; exact ⟨k, hk, Or.inl h2, fun _ => h2⟩
        · exact Or.inl hv
    · intro r f' hv
      simp only [procs_set, procs_note, procs_deliver] at hv
      split at hv
      · cases hv
      · split at hv
        · rename_i e; subst e; rw [arrive_frame] at hv; exact Or.inl hv
        · exact Or.inl hv
  | thrown q f success user x transOk hf hfr hu hl =>
    obtain ⟨k, hk, h1, h2⟩ := h.frm q f hfr
    refine h.same (by simp) ?_ ?_ ?_
    · intro r v' hv
      simp only [procs_set, procs_note, procs_deliver] at hv
      split at hv
      · rename_i e; subst e; exact Or.inl hv
      · split at hv
        · rename_i e; subst e; rw [arrive_table] at hv; exact Or.inl hv
        · exact Or.inl hv
    · intro r m hv
      simp only [procs_set, procs_note, procs_deliver] at hv
      split at hv
      · rename_i e; subst e; exact Or.inl hv
      · split at hv
        · rename_i e; subst e
          rcases mem_arrive hv with hv | hv
          · exact Or.inl hv
          · right; subst hv; exact ⟨k, hk, Or.inl h2, fun _ => h2⟩
        · exact Or.inl hv
    · intro r f' hv
      simp only [procs_set, procs_note, procs_deliver] at hv
      split at hv
      · rename_i e; subst e; exact Or.inl hv
      · split at hv
        · rename_i e; subst e; rw [arrive_frame] at hv; exact Or.inl hv
        · exact Or.inl hv
  | unheard q f success user x transOk hf hfr hu =>
    refine h.same rfl ?_ ?_ ?_ <;> intro r v hv <;> simp only [procs_note, procs_set] at hv <;> split at hv <;>
      first | (rename_i e; subst e; exact Or.inl hv) | exact Or.inl hv
  | died p =>
    refine h.same rfl ?_ ?_ ?_ <;> intro r v hv <;> rw [procs_set] at hv <;> split at hv <;>
      first | (rename_i e; subst e; exact Or.inl hv) | exact Or.inl hv
  | reported c k hk =>
    refine h.same (by simp) ?_ ?_ ?_
    · intro r v' hv
      simp only [procs_note, procs_deliver] at hv
      split at hv
      · rename_i e; subst e; rw [arrive_table] at hv; exact Or.inl hv
      · exact Or.inl hv
    · intro r m hv
      simp only [procs_note, procs_deliver] at hv
      split at hv
      · rename_i e; subst e
        rcases mem_arrive hv with hv | hv
        · exact Or.inl hv
        · right; subst hv; exact ⟨k, hk, rfl⟩
      · exact Or.inl hv
    · intro r f' hv
      simp only [procs_note, procs_deliver] at hv
      split at hv
      · rename_i e; subst e; rw [arrive_frame] at hv; exact Or.inl hv
      · exact Or.inl hv

theorem Home.init : Home {} := ⟨by simp, by simp, by simp, by simp⟩

theorem Home.foldl {srv : Nat → Bool} : ∀ (as : List Act) {w : World}, Home w → Home (as.foldl (step srv) w)
  | [], _, h => h
  | a :: as, _, h => Home.foldl as (h.move (step_move srv _ a))

theorem Home.run (srv : Nat → Bool) (as : List Act) : Home (run srv as) := Home.foldl as Home.init

end Casual.Conv
