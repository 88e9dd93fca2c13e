import Verif.Conv.Count
/-!
The data of a conversation: sent, pending, received.
-/
namespace Casual.Conv

/-- What `tpsend` in `p` has sent in the conversation, first to last. -/
def sentBy (p c : Nat) : List Entry → List Nat
  | [] => []
  | .sent p' c' x :: l => if p' = p ∧ c' = c then sentBy p c l ++ [x] else sentBy p c l
  | _ :: l => sentBy p c l

/-- What `tprecv` in `p` has given from the conversation while it went on, first to last. -/
def gotBy (p c : Nat) : List Entry → List Nat
  | [] => []
  | .got p' c' x _ :: l => if p' = p ∧ c' = c then gotBy p c l ++ [x] else gotBy p c l
  | _ :: l => gotBy p c l

def dataOf (c : Nat) : Msg → Option Nat
  | .data c' _ .absent _ x => if c' = c then some x else none
  | _ => none

def pend (c : Nat) (p : Proc) : List Nat := p.inbox.filterMap (dataOf c)

theorem dataOf_corr {c : Nat} {m : Msg} (h : m.corr ≠ c) : dataOf c m = none := by
  cases m with
  | data c' dx code u x => cases code <;> simp [dataOf]; exact h
  | _ => rfl

theorem dataOf_conversation {c : Nat} {m : Msg} (h : isConversation c m = false) : dataOf c m = none := by
  cases m with
  | data c' dx code u x =>
    simp [isConversation] at h
    cases code <;> simp [dataOf]; exact h
  | _ => rfl

theorem pend_arrive {c : Nat} {p : Proc} {m : Msg} (h : dataOf c m = none) : pend c (arrive p m) = pend c p := by
  unfold pend
  rcases arrive_inbox p m with e | ⟨e, _, _⟩
  · rw [e]
  · rw [e, List.filterMap_append]; simp [h]

theorem filterMap_mid {c : Nat} {pre post : List Msg} {m : Msg} (h : dataOf c m = none) :
    (pre ++ m :: post).filterMap (dataOf c) = (pre ++ post).filterMap (dataOf c) := by
  simp [List.filterMap_append, List.filterMap_cons, h]

theorem filterMap_mid_sub {c : Nat} (pre post : List Msg) (m : Msg) :
    ((pre ++ post).filterMap (dataOf c)).Sublist ((pre ++ m :: post).filterMap (dataOf c)) := by
  apply List.Sublist.filterMap
  exact List.Sublist.append (List.Sublist.refl _) (List.sublist_cons_self _ _)

/-- `r` and `s` are the two sides of the conversation. -/
def Pair (w : World) (c r s : Nat) : Prop :=
  ∃ k, w.convs[c]? = some k ∧ ((r = k.initiator ∧ s = k.subordinate) ∨ (r = k.subordinate ∧ s = k.initiator))

theorem Pair.ne {w : World} (h : Home w) {c r s : Nat} (hp : Pair w c r s) : r ≠ s := by
  obtain ⟨k, hk, h1⟩ := hp
  have := h.par k (List.mem_of_getElem? hk)
  rcases h1 with ⟨a, b⟩ | ⟨a, b⟩
  · rw [a, b]; exact this
  · rw [a, b]; exact fun e => this e.symm

/-- Nothing has been received or sent. -/
def Still (w w' : World) (c r s : Nat) : Prop :=
  gotBy r c w'.log = gotBy r c w.log ∧ sentBy s c w'.log = sentBy s c w.log

/-- How a step changes what is pending for one side. -/
inductive Flow (srv : Nat → Bool) (w w' : World) (c r s : Nat) : Prop
  | calm (h : pend c (w'.procs r) = pend c (w.procs r)) (hl : Still w w' c r s)
  | read (x : Nat) (h : pend c (w.procs r) = x :: pend c (w'.procs r))
    (hg : gotBy r c w'.log = gotBy r c w.log ++ [x]) (hs : sentBy s c w'.log = sentBy s c w.log)
  | write (x : Nat) (v : Val) (hv : some v ∈ (w.procs s).table) (hc : v.corr = c) (hd : v.duplex = .send)
    (hf : (w.procs s).free (srv s) = true)
    (hg : gotBy r c w'.log = gotBy r c w.log) (hs : sentBy s c w'.log = sentBy s c w.log ++ [x])
    (h : pend c (w'.procs r) = pend c (w.procs r) ++ [x] ∨
      (c ∈ (w.procs r).discarded ∧ pend c (w'.procs r) = pend c (w.procs r)))
  | over (h : (pend c (w'.procs r)).Sublist (pend c (w.procs r))) (hl : Still w w' c r s)
    (hz : places c (w'.procs r) = 0)
  | dropped (h : (pend c (w'.procs r)).Sublist (pend c (w.procs r))) (hl : Still w w' c r s)
    (hs : srv r = true) (ha : (w.procs r).alive = true) (hb : (w.procs r).busy = false)
    (hc : (w.procs r).calling = none) (ht : (w'.procs r).table = (w.procs r).table)

theorem Move.flow {srv : Nat → Bool} {w w' : World} {a : Act} (hi : Inv w) (hm : Move srv w a w') {c r s : Nat}
    (hp : Pair w c r s) : Flow srv w w' c r s := by
  have hne := hp.ne hi.home
  cases hm with
  | same => exact .calm rfl ⟨rfl, rfl⟩
  | drop q good m rest hs ha hb hc hin hm =>
    by_cases e : r = q
    · subst e
      refine .dropped ?_ ⟨rfl, rfl⟩ hs ha hb hc (by rw [procs_set, if_pos rfl])
      rw [procs_set, if_pos rfl]
      unfold pend
      rw [hin]
      exact List.Sublist.filterMap _ (List.sublist_cons_self _ _)
    · refine .calm ?_ ⟨rfl, rfl⟩
      rw [procs_set, if_neg e]
  | started q c' src dx x rest hs ha hb hc hin hu =>
    refine .calm ?_ ⟨by simp [gotBy], by simp [sentBy]⟩
    have key : pend c ({ (w.procs q) with
          inbox := rest, table := (reserve (w.procs q).table ⟨c', src, dx, false⟩).2, busy := true,
          frame := some ⟨c', src, (reserve (w.procs q).table ⟨c', src, dx, false⟩).1⟩ } : Proc) = pend c (w.procs q) := by
      unfold pend
      rw [hin]
      rfl
    simp only [procs_note, procs_deliver, procs_set]
    split
    · rename_i e; subst e
      rw [pend_arrive (by rfl)]
      split
      · rename_i e; subst e; exact key
      · rfl
    · split
      · rename_i e; subst e; exact key
      · rfl
  | orphan q c' src dx x rest hs ha hb hin hu =>
    refine .calm ?_ ⟨by simp [gotBy], by simp [sentBy]⟩
    simp only [procs_note, procs_set]
    split
    · rename_i e; subst e
      unfold pend
      rw [hin]
      rfl
    · rfl
  | failed q c' src dx x rest hs ha hb hin =>
    refine .calm ?_ ⟨by simp [gotBy], by simp [sentBy]⟩
    simp only [procs_note, procs_deliver, procs_set]
    split
    · rename_i e; subst e
      unfold pend
      rw [hin]
      rfl
    · rename_i e
      split
      · rename_i e2; subst e2
        rw [if_neg e, pend_arrive (by rfl)]
      · rfl
  | begin q hs ha hb =>
    refine .calm ?_ ⟨rfl, rfl⟩
    simp only [procs_set]
    split <;> first | (rename_i e; subst e; rfl) | rfl
  | finish q hs hf hn =>
    refine .calm ?_ ⟨rfl, rfl⟩
    simp only [procs_set]
    split <;> first | (rename_i e; subst e; rfl) | rfl
  | refused p target so ro x t ht =>
    refine .calm ?_ ⟨rfl, rfl⟩
    simp only [procs_set]
    split <;> first | (rename_i e; subst e; rfl) | rfl
  | asked p q so ro x hf hq hu hx =>
    refine .calm ?_ ⟨by simp [gotBy], by simp [sentBy]⟩
    simp only [procs_note, procs_deliver, procs_set]
    split
    · rename_i e; subst e
      rw [pend_arrive (by rfl)]
    · split <;> first | (rename_i e; subst e; rfl) | rfl
  | connected p i c' pre post ha hc hin =>
    refine .calm ?_ ⟨by simp [gotBy], by simp [sentBy]⟩
    simp only [procs_note, procs_set]
    split
    · rename_i e; subst e
      unfold pend
      rw [hin, filterMap_mid (by rfl)]
    · rfl
  | sent p d x ro v hf ht hd hn hu =>
    obtain ⟨k', hk', _, hpq⟩ := hi.home.tab p v (mem_of_idx ht)
    have hpp : v.peer ≠ p := by
      have := hi.home.par k' (List.mem_of_getElem? hk')
      rcases hpq with ⟨_, h1, h2⟩ | ⟨_, h1, h2⟩
      · rw [h1, h2]; exact fun e => this e.symm
      · rw [h1, h2]; exact this
    by_cases hvc : v.corr = c
    · have hrs : (r = p ∧ s = v.peer) ∨ (r = v.peer ∧ s = p) := by
        obtain ⟨k, hk, h1⟩ := hp
        rw [hvc, hk] at hk'
        simp only [Option.some.injEq] at hk'
        subst hk'
        rcases hpq with ⟨_, a, b⟩ | ⟨_, a, b⟩ <;> rcases h1 with ⟨a', b'⟩ | ⟨a', b'⟩
        · exact Or.inl ⟨by rw [a', a], by rw [b', b]⟩
        · exact Or.inr ⟨by rw [a', b], by rw [b', a]⟩
        · exact Or.inr ⟨by rw [a', b], by rw [b', a]⟩
        · exact Or.inl ⟨by rw [a', a], by rw [b', b]⟩
      rcases hrs with ⟨e1, e2⟩ | ⟨e1, e2⟩
      · subst e1
        refine .calm ?_ ⟨by simp [gotBy], ?_⟩
        · rw [procs_note, (procs_two hpp).1]
          rfl
        · simp only [log_note, log_deliver, log_set, sentBy]
          rw [if_neg (fun e => hne e.1)]
      · subst e1 e2
        refine .write x v (mem_of_idx ht) hvc hd hf (by simp [gotBy]) ?_ ?_
        · simp only [log_note, log_deliver, log_set, sentBy]
          simp [hvc]
        · rw [procs_note, (procs_two hpp).2]
          unfold pend
          by_cases hdis : v.corr ∈ (w.procs v.peer).discarded
          · right
            refine ⟨by rw [← hvc]; exact hdis, ?_⟩
            unfold arrive
            rw [if_pos hu, if_pos (by exact hdis)]
          · left
            rw [arrive_here hu (by exact hdis), List.filterMap_append]
            simp [dataOf, hvc]
    · refine .calm ?_ ⟨by simp [gotBy], ?_⟩
      · simp only [procs_note, procs_deliver, procs_set]
        split
        · rename_i e; subst e
          rw [pend_arrive (by simp [dataOf, hvc])]
        · split <;> first | (rename_i e; subst e; rfl) | rfl
      · simp only [log_note, log_deliver, log_set, sentBy]
        rw [if_neg (fun e => hvc e.2)]
  | ended a p d v m pre post hact hf ht hin hmm hpm =>
    by_cases e : r = p ∧ v.corr = c
    · obtain ⟨e1, e2⟩ := e
      subst e1
      refine .over ?_ ⟨by simp [gotBy], by simp [sentBy]⟩ ?_
      · rw [procs_note, procs_set, if_pos rfl]
        unfold pend
        rw [hin]
        exact filterMap_mid_sub _ _ _
      · rw [procs_note, procs_set, if_pos rfl]
        have := close_places (c := c) (p' := (w.procs r).ended d.toNat (pre ++ post)) ht rfl (by
          rw [hin, countP_mid]; simp only [Proc.ended]; omega)
        have h1 := hi.one c r
        simp only [e2, beq_self_eq_true, one_true] at this
        omega
    · refine .calm ?_ ⟨by simp [gotBy], by simp [sentBy]⟩
      simp only [procs_note, procs_set]
      split
      · rename_i e1; subst e1
        have hvc : v.corr ≠ c := fun h => e ⟨rfl, h⟩
        unfold pend
        rw [hin, filterMap_mid (dataOf_corr (by rw [isConversation_corr hmm]; exact hvc))]
        rfl
      · rfl
  | lost p d a v hact hf ht hu =>
    refine .calm ?_ ⟨by simp [gotBy], by simp [sentBy]⟩
    simp only [procs_note, procs_set]
    split <;> first | (rename_i e; subst e; rfl) | rfl
  | got p d nb v dx u x pre post hf ht hd hin hpm hn =>
    by_cases e : r = p ∧ v.corr = c
    · obtain ⟨e1, e2⟩ := e
      subst e1
      refine .read x ?_ ?_ (by simp [sentBy])
      · rw [procs_note, procs_set, if_pos rfl]
        unfold pend
        have hz : pre.filterMap (dataOf c) = [] := by
          rw [List.filterMap_eq_nil_iff]
          intro m hm
          exact dataOf_conversation (by rw [← e2]; exact hpm m hm)
        rw [hin, List.filterMap_append, List.filterMap_append, hz]
        simp [dataOf, e2]
      · simp only [log_note, log_set, gotBy]
        simp [e2]
    · refine .calm ?_ ⟨?_, by simp [sentBy]⟩
      · simp only [procs_note, procs_set]
        split
        · rename_i e1; subst e1
          have hvc : v.corr ≠ c := fun h => e ⟨rfl, h⟩
          unfold pend
          rw [hin, filterMap_mid (by simp [dataOf, hvc])]
        · rfl
      · simp only [log_note, log_set, gotBy]
        rw [if_neg (fun h => e ⟨h.1.symm, h.2⟩)]
  | disconnected p d v hf ht hv hu =>
    obtain ⟨k', hk', _, hpq⟩ := hi.home.tab p v (mem_of_idx ht)
    have hpp : v.peer ≠ p := by
      have := hi.home.par k' (List.mem_of_getElem? hk')
      rcases hpq with ⟨_, h1, h2⟩ | ⟨_, h1, h2⟩
      · rw [h1, h2]; exact fun e => this e.symm
      · rw [h1, h2]; exact this
    by_cases e1 : r = p
    · subst e1
      have key : pend c (if v.duplex = .receive then discard { (w.procs r) with table := close (w.procs r).table d.toNat } v.corr else { (w.procs r) with table := close (w.procs r).table d.toNat }) = pend c (w.procs r) ∨ (v.corr = c ∧ (pend c (if v.duplex = .receive then discard { (w.procs r) with table := close (w.procs r).table d.toNat } v.corr else { (w.procs r) with table := close (w.procs r).table d.toNat })).Sublist (pend c (w.procs r))) := by
        split
        · rcases discard_inbox { (w.procs r) with table := close (w.procs r).table d.toNat } v.corr with e | ⟨pre, m0, post, h1, h2, h3⟩
          · left; unfold pend; rw [e]
          · have h1 : (w.procs r).inbox = pre ++ m0 :: post := h1
            by_cases hvc : v.corr = c
            · right
              refine ⟨hvc, ?_⟩
              unfold pend
              rw [h3, h1]
              exact filterMap_mid_sub _ _ _
            · left
              unfold pend
              rw [h3, h1, filterMap_mid (dataOf_corr (by rw [h2]; exact hvc))]
        · left; rfl
      rcases key with key | ⟨hvc, key⟩
      · refine .calm ?_ ⟨by simp [gotBy], by simp [sentBy]⟩
        rw [procs_note, (procs_two hpp).1]
        exact key
      · refine .over ?_ ⟨by simp [gotBy], by simp [sentBy]⟩ ?_
        · rw [procs_note, (procs_two hpp).1]
          exact key
        · rw [procs_note, (procs_two hpp).1]
          have h1 := hi.one c r
          split
          · have := close_places (c := c) (p' := discard { (w.procs r) with table := close (w.procs r).table d.toNat } v.corr) ht
              (by rw [discard_table]) (countP_discard _ _ _)
            simp only [hvc, beq_self_eq_true, one_true] at this
            have h2 : Conv.places c (w.procs r) ≤ 1 := h1
            rw [hvc]
            exact Nat.le_zero.1 (Nat.le_of_succ_le_succ (Nat.le_trans this h2))
          · have := close_places (c := c) (p' := { (w.procs r) with table := close (w.procs r).table d.toNat }) ht rfl (Nat.le_refl _)
            simp only [hvc, beq_self_eq_true, one_true] at this
            have h2 : Conv.places c (w.procs r) ≤ 1 := h1
            exact Nat.le_zero.1 (Nat.le_of_succ_le_succ (Nat.le_trans this h2))
    · refine .calm ?_ ⟨by simp [gotBy], by simp [sentBy]⟩
      simp only [procs_note, procs_deliver, procs_set]
      split
      · rename_i e; subst e
        rw [pend_arrive (by rfl)]
      · first | rw [if_neg e1] | rfl
  | returned q f success user x transOk v hf hfr hu hl =>
    refine .calm ?_ ⟨by simp [gotBy], by simp [sentBy]⟩
    simp only [procs_set, procs_note, procs_deliver]
    split
    · rename_i e; subst e; rfl
    · split
      · rename_i e; subst e
        rw [pend_arrive (by cases success <;> cases transOk <;> rfl)]
      · rfl
  | thrown q f success user x transOk hf hfr hu hl =>
    refine .calm ?_ ⟨by simp [gotBy], by simp [sentBy]⟩
    simp only [procs_set, procs_note, procs_deliver]
    split
    · rename_i e; subst e; rfl
    · split
      · rename_i e; subst e
        rw [pend_arrive (by cases success <;> cases transOk <;> rfl)]
      · rfl
  | unheard q f success user x transOk hf hfr hu =>
    refine .calm ?_ ⟨by simp [gotBy], by simp [sentBy]⟩
    simp only [procs_note, procs_set]
    split <;> first | (rename_i e; subst e; rfl) | rfl
  | died p =>
    refine .calm ?_ ⟨rfl, rfl⟩
    simp only [procs_set]
    split <;> first | (rename_i e; subst e; rfl) | rfl
  | reported c' k hk =>
    refine .calm ?_ ⟨by simp [gotBy], by simp [sentBy]⟩
    simp only [procs_note, procs_deliver]
    split
    · rename_i e; subst e
      rw [pend_arrive (by rfl)]
    · rfl

/-! ### what is in the log -/

def Entry.corr? : Entry → Option Nat
  | .asked c _ _ => some c
  | .started c _ _ => some c
  | .connected c _ => some c
  | .sent _ c _ => some c
  | .got _ c _ _ => some c
  | .ended _ c _ _ _ => some c
  | .lost _ c => some c
  | .disconnected c => some c
  | .returned c _ _ _ _ => some c
  | .failed c => some c
  | .reported c => some c
  | .exited _ => none

def Known (w : World) : Prop := ∀ e ∈ w.log, ∀ c, e.corr? = some c → c < w.convs.length

theorem Move.convs {srv : Nat → Bool} {w w' : World} {a : Act} (hm : Move srv w a w') :
    w'.convs = w.convs ∨ ∃ k, w'.convs = w.convs ++ [k] := by
  cases hm <;> first | (left; simp; done) | (left; rfl) | skip
  rename_i p q so ro x hf hq hu hx
  exact Or.inr ⟨⟨p, q⟩, by simp only [convs_note, convs_deliver]⟩

/-- What a step adds to the log. -/
theorem Move.log {srv : Nat → Bool} {w w' : World} {a : Act} (hm : Move srv w a w') :
    ∃ es, w'.log = es ++ w.log := by
  cases hm <;>
    first
    | exact ⟨[], rfl⟩
    | (simp only [log_note, log_deliver, log_set]
       first
       | exact ⟨[_], rfl⟩
       | exact ⟨[_, _], rfl⟩)

theorem lt_of_some {cs : List Parties} {c : Nat} {k : Parties} (h : cs[c]? = some k) : c < cs.length :=
  (List.getElem?_eq_some_iff.1 h).1

theorem Known.move {srv : Nat → Bool} {w w' : World} {a : Act} (hk : Known w) (hi : Home w) (hm : Move srv w a w') :
    Known w' := by
  have base : ∀ es : List Entry, w'.log = es ++ w.log → w.convs.length ≤ w'.convs.length →
      (∀ e ∈ es, ∀ c, e.corr? = some c → c < w'.convs.length) → Known w' := by
    intro es hl hlen hes e he c hc
    rw [hl] at he
    rcases List.mem_append.1 he with he | he
    · exact hes e he c hc
    · exact Nat.lt_of_lt_of_le (hk e he c hc) hlen
  have req : ∀ (q c src : Nat) (dx : Duplex) (x : Nat) (rest : List Msg), (w.procs q).inbox = .request c src dx x :: rest → c < w.convs.length := by
    intro q c src dx x rest h
    obtain ⟨k, h1, _⟩ := hi.msg q (.request c src dx x) (by rw [h]; exact List.mem_cons_self)
    exact lt_of_some h1
  have tb : ∀ (p i : Nat) (v : Val), (w.procs p).table[i]? = some (some v) → v.corr < w.convs.length := by
    intro p i v h
    obtain ⟨k, h1, _⟩ := hi.tab p v (mem_of_idx h)
    exact lt_of_some h1
  cases hm with
  | same => exact hk
  | drop => exact hk
  | begin => exact hk
  | finish => exact hk
  | refused => exact hk
  | died => exact hk
  | started q c' src dx x rest hs ha hb hc hin hu =>
    refine base [_] (by simp only [log_note, log_deliver, log_set]; rfl) (by simp) ?_
    intro e he c hc
    simp only [List.mem_singleton] at he; subst he
    simp only [Entry.corr?, Option.some.injEq] at hc; subst hc
    simpa using req _ _ _ _ _ _ hin
  | orphan q c' src dx x rest hs ha hb hin hu =>
    refine base [_, _] (by simp only [log_note, log_deliver, log_set]; rfl) (by simp) ?_
    intro e he c hc
    simp only [List.mem_cons, List.not_mem_nil, or_false] at he
    rcases he with he | he <;> subst he <;> simp [Entry.corr?] at hc
    subst hc
    simpa using req _ _ _ _ _ _ hin
  | failed q c' src dx x rest hs ha hb hin =>
    refine base [_, _] (by simp only [log_note, log_deliver, log_set]; rfl) (by simp) ?_
    intro e he c hc
    simp only [List.mem_cons, List.not_mem_nil, or_false] at he
    rcases he with he | he <;> subst he <;> simp [Entry.corr?] at hc
    subst hc
    simpa using req _ _ _ _ _ _ hin
  | asked p q so ro x hf hq hu hx =>
    refine base [_] (by simp only [log_note, log_deliver, log_set]; rfl) (by simp) ?_
    intro e he c hc
    simp only [List.mem_singleton] at he; subst he
    simp only [Entry.corr?, Option.some.injEq] at hc; subst hc
    simp
  | connected p i c' pre post ha hc hin =>
    refine base [_] (by simp only [log_note, log_set]; rfl) (by simp) ?_
    intro e he c hc
    simp only [List.mem_singleton] at he; subst he
    simp only [Entry.corr?, Option.some.injEq] at hc; subst hc
    obtain ⟨k, h1, _⟩ := hi.msg p (.reply c') (by rw [hin]; simp)
    simp only [convs_note, convs_set]
    exact lt_of_some h1
  | sent p d x ro v hf ht hd hn hu =>
    refine base [_] (by simp only [log_note, log_deliver, log_set]; rfl) (by simp) ?_
    intro e he c hc
    simp only [List.mem_singleton] at he; subst he
    simp only [Entry.corr?, Option.some.injEq] at hc; subst hc
    simpa using tb _ _ _ ht
  | ended a p d v m pre post hact hf ht hin hmm hpm =>
    refine base [_] (by simp only [log_note, log_set]; rfl) (by simp) ?_
    intro e he c hc
    simp only [List.mem_singleton] at he; subst he
    simp only [Entry.corr?, Option.some.injEq] at hc; subst hc
    simpa using tb _ _ _ ht
  | lost p d a v hact hf ht hu =>
    refine base [_] (by simp only [log_note, log_set]; rfl) (by simp) ?_
    intro e he c hc
    simp only [List.mem_singleton] at he; subst he
    simp only [Entry.corr?, Option.some.injEq] at hc; subst hc
    simpa using tb _ _ _ ht
  | got p d nb v dx u x pre post hf ht hd hin hpm hn =>
    refine base [_] (by simp only [log_note, log_set]; rfl) (by simp) ?_
    intro e he c hc
    simp only [List.mem_singleton] at he; subst he
    simp only [Entry.corr?, Option.some.injEq] at hc; subst hc
    simpa using tb _ _ _ ht
  | disconnected p d v hf ht hv hu =>
    refine base [_] (by simp only [log_note, log_deliver, log_set]; rfl) (by simp) ?_
    intro e he c hc
    simp only [List.mem_singleton] at he; subst he
    simp only [Entry.corr?, Option.some.injEq] at hc; subst hc
    simpa using tb _ _ _ ht
  | returned q f success user x transOk v hf hfr hu hl =>
    refine base [_] (by simp only [log_note, log_deliver, log_set]; rfl) (by simp) ?_
    intro e he c hc
    simp only [List.mem_singleton] at he; subst he
    simp only [Entry.corr?, Option.some.injEq] at hc; subst hc
    obtain ⟨k, h1, _⟩ := hi.frm q f hfr
    simpa using lt_of_some h1
  | thrown q f success user x transOk hf hfr hu hl =>
    refine base [_, _] (by simp only [log_note, log_deliver, log_set]; rfl) (by simp) ?_
    intro e he c hc
    simp only [List.mem_cons, List.not_mem_nil, or_false] at he
    rcases he with he | he <;> subst he <;> simp [Entry.corr?] at hc
    subst hc
    obtain ⟨k, h1, _⟩ := hi.frm q f hfr
    simpa using lt_of_some h1
  | unheard q f success user x transOk hf hfr hu =>
    refine base [_] (by simp only [log_note, log_set]; rfl) (by simp) ?_
    intro e he c hc
    simp only [List.mem_singleton] at he; subst he
    simp [Entry.corr?] at hc
  | reported c' k hk' =>
    refine base [_] (by simp only [log_note, log_deliver]; rfl) (by simp) ?_
    intro e he c hc
    simp only [List.mem_singleton] at he; subst he
    simp only [Entry.corr?, Option.some.injEq] at hc; subst hc
    simpa using lt_of_some hk'

theorem gotBy_none {r c : Nat} : ∀ {l : List Entry}, (∀ e ∈ l, e.corr? ≠ some c) → gotBy r c l = []
  | [], _ => rfl
  | e :: l, h => by
    have ih := gotBy_none (r := r) (l := l) (fun e' he => h e' (List.mem_cons_of_mem _ he))
    cases e with
    | got p' c' x b =>
      have : c' ≠ c := by
        have := h _ List.mem_cons_self
        simpa [Entry.corr?] using this
      simp [gotBy, this, ih]
    | _ => simpa [gotBy] using ih

theorem sentBy_none {r c : Nat} : ∀ {l : List Entry}, (∀ e ∈ l, e.corr? ≠ some c) → sentBy r c l = []
  | [], _ => rfl
  | e :: l, h => by
    have ih := sentBy_none (r := r) (l := l) (fun e' he => h e' (List.mem_cons_of_mem _ he))
    cases e with
    | sent p' c' x =>
      have : c' ≠ c := by
        have := h _ List.mem_cons_self
        simpa [Entry.corr?] using this
      simp [sentBy, this, ih]
    | _ => simpa [sentBy] using ih

theorem Home.fresh_pend {w : World} (h : Home w) {c r : Nat} (hc : w.convs[c]? = none) : pend c (w.procs r) = [] := by
  unfold pend
  rw [List.filterMap_eq_nil_iff]
  intro m hm
  obtain ⟨k, hk, _⟩ := h.msg r m hm
  apply dataOf_corr
  intro e
  rw [e, hc] at hk
  cases hk

/-- A conversation that is new has no data yet. -/
theorem Move.new {srv : Nat → Bool} {w w' : World} {a : Act} (hi : Home w) (hk : Known w) (hm : Move srv w a w') {c r s : Nat}
    (hp : Pair w' c r s) (hn : ¬ Pair w c r s) :
    pend c (w'.procs r) = [] ∧ gotBy r c w'.log = [] ∧ sentBy s c w'.log = [] ∧ c = w.convs.length := by
  have hcl : w'.convs ≠ w.convs := by
    intro e
    apply hn
    obtain ⟨k, h1, h2⟩ := hp
    exact ⟨k, by rw [← e]; exact h1, h2⟩
  cases hm <;> first | (exfalso; exact hcl rfl) | (exfalso; apply hcl; simp; done) | skip
  rename_i p q so ro x hf hq hu hx
  have hc : c = w.convs.length := by
    obtain ⟨k, h1, h2⟩ := hp
    simp only [convs_note, convs_deliver] at h1
    have := lt_of_some h1
    simp only [List.length_append, List.length_singleton] at this
    apply Classical.byContradiction
    intro hne
    have hlt : c < w.convs.length := by omega
    rw [List.getElem?_append_left hlt] at h1
    exact hn ⟨k, h1, h2⟩
  have hnone : w.convs[c]? = none := by rw [hc]; simp
  have hkn : ∀ e ∈ w.log, e.corr? ≠ some c := by
    intro e he h
    have := hk e he c h
    omega
  refine ⟨?_, ?_, ?_, hc⟩
  · simp only [procs_note, procs_deliver, procs_set]
    split
    · rename_i e; subst e
      rw [pend_arrive (by rfl)]
      exact hi.fresh_pend hnone
    · split
      · rename_i e; subst e; exact hi.fresh_pend hnone
      · exact hi.fresh_pend hnone
  · simp only [log_note, log_deliver, log_set, gotBy]
    exact gotBy_none hkn
  · simp only [log_note, log_deliver, log_set, sentBy]
    exact sentBy_none hkn

/-- What has been received and what is pending has been sent, in that order. -/
def Seq (w : World) : Prop :=
  ∀ c r s, Pair w c r s → (gotBy r c w.log ++ pend c (w.procs r)).Sublist (sentBy s c w.log)

theorem Seq.move {srv : Nat → Bool} {w w' : World} {a : Act} (h : Seq w) (hi : Inv w) (hk : Known w) (hm : Move srv w a w') :
    Seq w' := by
  intro c r s hp
  by_cases hp0 : Pair w c r s
  · have h0 := h c r s hp0
    cases hm.flow hi hp0 with
    | calm h1 hl => rw [h1, hl.1, hl.2]; exact h0
    | read x h1 hg hs => rw [hg, hs]; rw [h1] at h0; simpa using h0
    | write x v hv hc hd hf hg hs h1 =>
      rw [hg, hs]
      rcases h1 with h1 | ⟨_, h1⟩
      · rw [h1, ← List.append_assoc]
        exact List.Sublist.append h0 (List.Sublist.refl _)
      · rw [h1]
        exact h0.trans (List.sublist_append_left _ _)
    | over h1 hl _ => rw [hl.1, hl.2]; exact (List.Sublist.append (List.Sublist.refl _) h1).trans h0
    | dropped h1 hl => rw [hl.1, hl.2]; exact (List.Sublist.append (List.Sublist.refl _) h1).trans h0
  · obtain ⟨h1, h2, _, _⟩ := hm.new hi.home hk hp hp0
    rw [h1, h2]
    exact List.nil_sublist _

end Casual.Conv
