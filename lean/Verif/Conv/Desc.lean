import Verif.Conv.Live
/-!
The descriptors, and all invariants together.
-/
namespace Casual.Conv

theorem reserve_get (t : Table) (v : Val) : (reserve t v).2[(reserve t v).1]? = some (some v) := by
  rcases reserve_cases t v with ⟨h1, h2⟩ | ⟨h1, h2⟩
  · rw [h2, List.getElem?_set, if_pos rfl, if_pos (List.getElem?_eq_some_iff.1 h1).1]
  · rw [h2, h1]; simp

theorem reserve_keep {t : Table} {v v' : Val} {i : Nat} (h : t[i]? = some (some v')) : (reserve t v).2[i]? = some (some v') := by
  rcases reserve_cases t v with ⟨h1, h2⟩ | ⟨h1, h2⟩
  · rw [h2, List.getElem?_set]
    split
    · rename_i e; rw [e, h] at h1; cases h1
    · exact h
  · rw [h2, List.getElem?_append_left (List.getElem?_eq_some_iff.1 h).1]; exact h

theorem close_keep {t : Table} {i j : Nat} (h : i ≠ j) : (close t i)[j]? = t[j]? := by
  unfold close
  rw [List.getElem?_set, if_neg h]

theorem set_keep {t : Table} {i j : Nat} {v v' u : Val} (hi : t[i]? = some (some v)) (hc : u.corr = v.corr)
    (h : t[j]? = some (some v')) : ∃ v'', (t.set i (some u))[j]? = some (some v'') ∧ v''.corr = v'.corr := by
  rw [List.getElem?_set]
  split
  · rename_i e
    subst e
    rw [hi] at h
    simp only [Option.some.injEq] at h
    subst h
    rw [if_pos (List.getElem?_eq_some_iff.1 hi).1]
    exact ⟨u, rfl, hc⟩
  · exact ⟨v', h, rfl⟩

/-- A descriptor stays the descriptor of its conversation, until it is closed. -/
theorem Loc.place {srv : Nat → Bool} {w w' : World} {r : Nat} (h : Loc srv w w' r) (ho : One w) {j : Nat} {v : Val}
    (hv : (w.procs r).table[j]? = some (some v)) (hp : 1 ≤ places v.corr (w'.procs r)) :
    ∃ v', (w'.procs r).table[j]? = some (some v') ∧ v'.corr = v.corr := by
  have shut : ∀ (i : Nat) (u : Val), (w.procs r).table[i]? = some (some u) → (w'.procs r).table = close (w.procs r).table i →
      (w'.procs r).inbox.Sublist (w.procs r).inbox → ∃ v', (w'.procs r).table[j]? = some (some v') ∧ v'.corr = v.corr := by
    intro i u hu ht hs
    by_cases e : i = j
    · subst e
      rw [hv] at hu
      simp only [Option.some.injEq] at hu
      subst hu
      have := closed_places ho hv ht (countP_sublist hs)
      omega
    · rw [ht, close_keep e]
      exact ⟨v, hv, rfl⟩
  cases h with
  | idle h => rw [h]; exact ⟨v, hv, rfl⟩
  | arrived m h hs => rw [h, arrive_table]; exact ⟨v, hv, rfl⟩
  | disconnected i u hf ht hv' h =>
    refine shut i u ht ?_ ?_
    · rw [h]; split
      · rw [discard_table]
      · rfl
    · rw [h]
      split
      · rcases discard_inbox { (w.procs r) with table := close (w.procs r).table i } u.corr with e | ⟨pre, m0, post, e1, _, e2⟩
        · rw [e]; exact List.Sublist.refl _
        · rw [e2]
          have e1 : (w.procs r).inbox = pre ++ m0 :: post := e1
          rw [e1]; exact List.Sublist.append (List.Sublist.refl _) (List.sublist_cons_self _ _)
      · exact List.Sublist.refl _
  | gone ib hs h => rw [h]; exact ⟨v, hv, rfl⟩
  | dropped m' rest hs ha hb hc' hi hm' h => rw [h]; exact ⟨v, hv, rfl⟩
  | began c' src dx x rest hs ha hb hc' hi hsrc h => rw [h]; exact ⟨v, reserve_keep hv, rfl⟩
  | worked b hb hb' h => rw [h]; exact ⟨v, hv, rfl⟩
  | refused t ht h =>
    rw [h]
    rcases ht with ht | ht
    · rw [ht]; exact ⟨v, hv, rfl⟩
    · rw [ht]
      refine ⟨v, ?_, rfl⟩
      show ((w.procs r).table ++ [none])[j]? = _
      rw [List.getElem?_append_left (List.getElem?_eq_some_iff.1 hv).1]; exact hv
  | asked q ro x hf hq h => rw [h]; exact ⟨v, reserve_keep hv, rfl⟩
  | connected i c' pre post hc' hi h => rw [h]; exact ⟨v, hv, rfl⟩
  | sent i x ro u hf ht hd hn h =>
    rw [h]; exact set_keep (u := { u with duplex := if ro then Duplex.receive else .send }) ht rfl hv
  | ended i u m' pre post hf ht hi hm' hp' h =>
    exact shut i u ht (by rw [h]) (by rw [h, hi]; exact List.Sublist.append (List.Sublist.refl _) (List.sublist_cons_self _ _))
  | lost i u hf ht h => exact shut i u ht (by rw [h]) (by rw [h]; exact List.Sublist.refl _)
  | got i u dx n x pre post hf ht hd hi hp h =>
    rw [h]; exact set_keep (u := { u with duplex := if dx = .send then Duplex.send else .receive }) ht rfl hv
  | returned f success user x transOk u hf hfr ht h => exact shut f.desc u ht (by rw [h]) (by rw [h]; exact List.Sublist.refl _)

theorem Loc.calling' {srv : Nat → Bool} {w w' : World} {r : Nat} (h : Loc srv w w' r) {i c : Nat}
    (hc : (w'.procs r).calling = some (i, c)) : (w.procs r).calling = some (i, c) ∨
      (c = w.convs.length ∧ ∃ v, (w'.procs r).table[i]? = some (some v) ∧ v.corr = c) := by
  cases h with
  | idle h => rw [h] at hc; exact Or.inl hc
  | arrived m h hs => rw [h, arrive_calling] at hc; exact Or.inl hc
  | disconnected j v hf ht hv h =>
    rw [h] at hc
    split at hc
    · rw [discard_calling] at hc; exact Or.inl hc
    · exact Or.inl hc
  | gone ib hs h => rw [h] at hc; exact Or.inl hc
  | dropped m rest hs ha hb hc' hi hm h => rw [h] at hc; exact Or.inl hc
  | began c' src dx x rest hs ha hb hc' hi hsrc h => rw [h] at hc; exact Or.inl hc
  | worked b hb hb' h => rw [h] at hc; exact Or.inl hc
  | refused t ht h => rw [h] at hc; exact Or.inl hc
  | asked q ro x hf hq h =>
    rw [h] at hc
    simp only [Option.some.injEq, Prod.mk.injEq] at hc
    obtain ⟨h1, h2⟩ := hc
    right
    subst h1 h2
    rw [h]
    exact ⟨rfl, _, reserve_get _ _, rfl⟩
  | connected j c' pre post hc' hi h => rw [h] at hc; cases hc
  | sent j x ro v hf ht hd hn h => rw [h] at hc; exact Or.inl hc
  | ended j v m pre post hf ht hi hm hp h => rw [h] at hc; exact Or.inl hc
  | lost j v hf ht h => rw [h] at hc; exact Or.inl hc
  | got j v dx u x pre post hf ht hd hi hp h => rw [h] at hc; exact Or.inl hc
  | returned f success user x transOk v hf hfr ht h => rw [h] at hc; exact Or.inl hc

/-- What `tpconnect` returns, or will return, is the descriptor of the conversation. -/
structure Desc (w : World) : Prop where
  call : ∀ r i c, (w.procs r).calling = some (i, c) → ∃ k, w.convs[c]? = some k ∧ r = k.initiator
  desc : ∀ c d k, w.convs[c]? = some k → (.connected c d ∈ w.log ∨ (w.procs k.initiator).calling = some (d, c)) →
    1 ≤ places c (w.procs k.initiator) → ∃ v, (w.procs k.initiator).table[d]? = some (some v) ∧ v.corr = c

theorem Desc.move {srv : Nat → Bool} {w w' : World} {a : Act} (h : Desc w) (hi : Inv w) (hk : Known w)
    (hm : Move srv w a w') : Desc w' := by
  have grow : ∀ (c : Nat) (k : Parties), w.convs[c]? = some k → w'.convs[c]? = some k := by
    intro c k h2
    rcases hm.convs with e | ⟨k', e⟩
    · rw [e]; exact h2
    · rw [e, List.getElem?_append_left (lt_of_some h2)]; exact h2
  constructor
  · intro r i c hc
    rcases (hm.loc hi.home r).calling' hc with h' | ⟨h', v, hv, hvc⟩
    · obtain ⟨k, h1, h2⟩ := h.call r i c h'
      exact ⟨k, grow c k h1, h2⟩
    · obtain ⟨k, hk1, _, h3⟩ := (hi.home.move hm).tab r v (mem_of_idx hv)
      rw [hvc] at hk1
      refine ⟨k, hk1, ?_⟩
      rcases h3 with ⟨_, h3, _⟩ | ⟨hini, h3, _⟩
      · exact h3
      · exfalso
        have hl := lt_of_some hk1
        have hcl : w'.convs ≠ w.convs := by intro e; rw [e] at hl; omega
        cases hm <;> first | (exact hcl rfl) | (apply hcl; simp; done) | skip
        rename_i p q so ro x hf hq hu hx
        simp only [convs_note, convs_deliver] at hk1
        rw [h', List.getElem?_append_right (Nat.le_refl _)] at hk1
        simp only [Nat.sub_self, List.getElem?_cons_zero, Option.some.injEq] at hk1
        subst hk1
        simp only at h3
        subst h3
        have e1 : (((({ (w.set p { (w.procs p) with table := (reserve (w.procs p).table ⟨w.convs.length, r, if ro then .receive else .send, true⟩).2, calling := some ((reserve (w.procs p).table ⟨w.convs.length, r, if ro then .receive else .send, true⟩).1, w.convs.length) }) with convs := w.convs ++ [(⟨p, r⟩ : Parties)] } : World).deliver r (.request w.convs.length p (if ro then Duplex.send else .receive) x)).note (.asked w.convs.length ro x)).procs r).calling = (w.procs r).calling := by
          rw [procs_note, (procs_two' hq).2, arrive_calling]
        have hc' := e1.symm.trans hc
        obtain ⟨k, hk2, _⟩ := h.call r i c hc'
        have := lt_of_some hk2
        omega
  · intro c d k hk' hor hp
    have hl := hm.loc hi.home k.initiator
    rcases hm.convs_new hk' with hk0 | hk0
    · have hp0 := hm.old_places hi.home hk0 hp
      have go : (.connected c d ∈ w.log ∨ (w.procs k.initiator).calling = some (d, c)) →
          ∃ v, (w'.procs k.initiator).table[d]? = some (some v) ∧ v.corr = c := by
        intro hor
        obtain ⟨v, h1, h2⟩ := h.desc c d k hk0 hor hp0
        obtain ⟨v', h3, h4⟩ := hl.place hi.one h1 (by rw [h2]; exact hp)
        exact ⟨v', h3, by rw [h4, h2]⟩
      rcases hor with ho | ho
      · rcases hm.entry hi.home ho with ho | ho
        · exact go (Or.inl ho)
        · cases ho with
          | connected p _ _ hc hin =>
            obtain ⟨k2, hk2, h3⟩ := h.call p d c hc
            rw [hk0] at hk2
            simp only [Option.some.injEq] at hk2
            subst hk2
            subst h3
            exact go (Or.inr hc)
      · rcases hl.calling' ho with ho | ⟨ho, _⟩
        · exact go (Or.inr ho)
        · have := lt_of_some hk0; omega
    · rcases hor with ho | ho
      · exfalso
        subst hk0
        obtain ⟨ro, x, h'⟩ := hm.fresh_log hi.home hk ho rfl (lt_of_some hk')
        cases h'
      · rcases hl.calling' ho with ho | ⟨_, v, hv, hvc⟩
        · obtain ⟨k2, hk2, _⟩ := h.call _ _ _ ho
          have := lt_of_some hk2; omega
        · exact ⟨v, hv, hvc⟩

/-! ### all of them -/

structure All (w : World) : Prop where
  inv : Inv w
  known : Known w
  seq : Seq w
  src : Src w
  disc : Disc w
  fram : Fram w
  req : Req w
  turn : Turn w
  over : Over w
  final : Final w
  told : Told w
  start : Start w
  desc : Desc w
  discon : ∀ c, Discon w c

theorem All.step {srv : Nat → Bool} {w : World} (h : All w) (a : Act) : All (step srv w a) :=
  have hm := step_move srv w a
  { inv := h.inv.step a
    known := h.known.move h.inv.home hm
    seq := h.seq.move h.inv h.known hm
    src := h.src.move h.inv.home hm
    disc := h.disc.move h.inv hm
    fram := h.fram.move h.inv.home hm
    req := h.req.move h.inv h.known h.src hm
    turn := h.turn.move h.inv h.req hm
    over := h.over.move h.inv h.known hm
    final := h.final.move h.inv h.over hm
    told := h.told.move h.inv h.src h.turn hm
    start := h.start.move h.inv h.known h.src h.req hm
    desc := h.desc.move h.inv h.known hm
    discon := fun c => (h.discon c).move h.inv h.known h.disc h.fram h.req hm }

theorem All.init : All {} :=
  { inv := Inv.init
    known := by intro e he; cases he
    seq := by rintro c r s ⟨k, hk, _⟩; simp at hk
    src := by intro r m hm; cases hm
    disc := by intro r c hc; cases hc
    fram := ⟨by intro r i v h; simp at h, by intro r f h; cases h⟩
    req := by intro r c s dx x h; cases h
    turn := ⟨by intro r v h; (cases h), by intro r c; exact List.Pairwise.nil⟩
    over := by intro e he; cases he
    final := List.Pairwise.nil
    told := by intro r c e u x h; cases h
    start := ⟨List.Pairwise.nil, List.Pairwise.nil, by intro c b x h; (cases h), by intro c d h; cases h⟩
    desc := ⟨by intro r i c h; (cases h), by intro c d k h; simp at h⟩
    discon := by intro c k hk; simp at hk }

theorem All.foldl {srv : Nat → Bool} : ∀ (as : List Act) {w : World}, All w → All (as.foldl (Conv.step srv) w)
  | [], _, h => h
  | a :: as, _, h => All.foldl as (h.step a)

theorem All.run (srv : Nat → Bool) (as : List Act) : All (run srv as) := All.foldl as All.init

theorem run_snoc (srv : Nat → Bool) (as : List Act) (a : Act) : run srv (as ++ [a]) = step srv (run srv as) a := by
  unfold run
  rw [List.foldl_append]
  rfl

end Casual.Conv
