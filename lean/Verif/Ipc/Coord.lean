import Verif.Ipc.Sending
/-! The coordinator, seen from one destination. -/
namespace Casual.Ipc

def Ev.dest : Ev → Nat
  | .accept d _ _ => d
  | .wire d _ => d
  | .lost d _ _ => d

/-- What a coordinator is for one destination. -/
def Coord.view (c : Coord) (d : Nat) : List Pend × List Ev := (c.queueOf d, c.tr.filter fun e => e.dest == d)

/-- What happens for one destination. -/
inductive Local (n d : Nat) : List Pend × List Ev → List Pend × List Ev → Prop
  | push (q t m cb) : Local n d (q, t) (q ++ [⟨⟨m, 0⟩, cb⟩], t ++ [.accept d m cb])
  | flush (q t rs) (h : (sendQueue n q rs).2.2.1 ≠ .failed) : Local n d (q, t) ((sendQueue n q rs).2.1, t ++ (sendQueue n q rs).1.map (.wire d))
  | fail (q t rs) (h : (sendQueue n q rs).2.2.1 = .failed) :
      Local n d (q, t) ([], t ++ ((sendQueue n q rs).1.map (.wire d) ++ lostAll d (sendQueue n q rs).2.1))
  | lose (q t) : Local n d (q, t) ([], t ++ lostAll d q)

inductive Locals (n d : Nat) : List Pend × List Ev → List Pend × List Ev → Prop
  | refl (x) : Locals n d x x
  | tail {x y z} (h : Locals n d x y) (h' : Local n d y z) : Locals n d x z

theorem Local.locals {n d x y} (h : Local n d x y) : Locals n d x y := .tail (.refl x) h

theorem sendQueue_done {n : Nat} : ∀ {q : List Pend} {rs : List Res}, (sendQueue n q rs).2.2.1 = .done → (sendQueue n q rs).2.1 = []
  | [], rs, _ => rfl
  | p :: q, rs, h => by
    unfold sendQueue at h ⊢
    dsimp only at h ⊢
    cases ho : (partialSend n p.send rs).2.2.1 with
    | done => rw [ho] at h; exact sendQueue_done (q := q) h
    | blocked => rw [ho] at h; cases h
    | failed => rw [ho] at h; cases h

theorem sendQueue_not_done {n : Nat} : ∀ {q : List Pend} {rs : List Res}, (sendQueue n q rs).2.2.1 ≠ .done → (sendQueue n q rs).2.1 ≠ []
  | [], rs, h => absurd rfl h
  | p :: q, rs, h => by
    unfold sendQueue at h ⊢
    dsimp only at h ⊢
    cases ho : (partialSend n p.send rs).2.2.1 with
    | done => rw [ho] at h; exact sendQueue_not_done (q := q) h
    | blocked => simp
    | failed => simp

/-- The structure: one entry for each destination, with something to send, and registered for write. -/
structure CI (c : Coord) : Prop where
  nodup : (c.remotes.map (·.dest)).Nodup
  some_ : ∀ r ∈ c.remotes, r.queue ≠ []
  write : ∀ d, d ∈ c.write ↔ d ∈ c.remotes.map (·.dest)
  wnodup : c.write.Nodup

theorem find_dest {rs : List Remote} {d : Nat} {r : Remote} (h : rs.find? (fun r => r.dest == d) = some r) : r ∈ rs ∧ r.dest = d :=
  ⟨List.mem_of_find?_eq_some h, by simpa using List.find?_some h⟩

theorem find_of_mem {rs : List Remote} (hn : (rs.map (·.dest)).Nodup) {r : Remote} (hr : r ∈ rs) : rs.find? (fun x => x.dest == r.dest) = some r := by
  induction rs with
  | nil => cases hr
  | cons a l ih =>
    simp only [List.map_cons, List.nodup_cons] at hn
    rcases List.mem_cons.mp hr with rfl | hr
    · simp
    · rw [List.find?_cons_of_neg]
      · exact ih hn.2 hr
      · simp only [beq_iff_eq]
        intro h
        exact hn.1 (List.mem_map.mpr ⟨r, hr, h.symm⟩)

/-! ## Effect of one remote -/

/-- What `Remote::send` leaves. -/
theorem remoteSend_spec (n : Nat) (r : Remote) (w : List Nat) (rs : List Res) :
    let x := r.send n w rs
    (∀ y ∈ x.1, y.dest = r.dest ∧ y.queue ≠ []) ∧ (∀ e ∈ x.2.1, e.dest = r.dest) ∧ (x.2.2.1 = if x.1.isSome then w else w.erase r.dest) ∧
    ∀ t, Local n r.dest (r.queue, t) (((x.1.map (·.queue)).getD []), t ++ x.2.1) := by
  dsimp only
  have hw : ∀ (fs : List Frag), ∀ e ∈ fs.map (Ev.wire r.dest), e.dest = r.dest := by
    intro fs e he; obtain ⟨f, -, rfl⟩ := List.mem_map.mp he; rfl
  cases ho : (sendQueue n r.queue rs).2.2.1 with
  | done =>
    have hx : r.send n w rs = (none, (sendQueue n r.queue rs).1.map (.wire r.dest), w.erase r.dest, (sendQueue n r.queue rs).2.2.2) := by
      unfold Remote.send; dsimp only; rw [ho]
    rw [hx]
    refine ⟨fun y hy => (by cases hy), hw _, rfl, fun t => ?_⟩
    have := Local.flush (n := n) (d := r.dest) r.queue t rs (by rw [ho]; simp)
    rwa [sendQueue_done ho] at this
  | blocked =>
    have hx : r.send n w rs = (some { r with queue := (sendQueue n r.queue rs).2.1 }, (sendQueue n r.queue rs).1.map (.wire r.dest), w, (sendQueue n r.queue rs).2.2.2) := by
      unfold Remote.send; dsimp only; rw [ho]
    rw [hx]
    refine ⟨fun y hy => ?_, hw _, rfl, fun t => Local.flush (n := n) (d := r.dest) r.queue t rs (by rw [ho]; simp)⟩
    cases hy
    exact ⟨rfl, sendQueue_not_done (by rw [ho]; simp)⟩
  | failed =>
    have hx : r.send n w rs = (none, (sendQueue n r.queue rs).1.map (.wire r.dest) ++ lostAll r.dest (sendQueue n r.queue rs).2.1, w.erase r.dest, (sendQueue n r.queue rs).2.2.2) := by
      unfold Remote.send; dsimp only; rw [ho]
    rw [hx]
    refine ⟨fun y hy => (by cases hy), fun e he => ?_, rfl, fun t => Local.fail (n := n) (d := r.dest) r.queue t rs ho⟩
    rcases List.mem_append.mp he with he | he
    · exact hw _ e he
    · simp only [lostAll, List.mem_map] at he
      obtain ⟨p, -, rfl⟩ := he
      rfl

theorem filter_all {d : Nat} {es : List Ev} (h : ∀ e ∈ es, e.dest = d) : es.filter (fun e => e.dest == d) = es :=
  List.filter_eq_self.mpr fun e he => by simp [h e he]

theorem filter_none {d d' : Nat} {es : List Ev} (h : ∀ e ∈ es, e.dest = d) (hd : d' ≠ d) : es.filter (fun e => e.dest == d') = [] :=
  List.filter_eq_nil_iff.mpr fun e he => by simp [h e he, Ne.symm hd]

theorem find_map_other {rs : List Remote} {d d' : Nat} (hd : d' ≠ d) {r' : Remote} (hr : r'.dest = d) :
    (rs.map fun x => if x.dest = d then r' else x).find? (fun x => x.dest == d') = rs.find? fun x => x.dest == d' := by
  induction rs with
  | nil => rfl
  | cons a l ih =>
    simp only [List.map_cons, List.find?_cons]
    by_cases ha : a.dest = d
    · have hb : (d == d') = false := by simp [Ne.symm hd]
      simp only [ha, if_true, hr, hb]
      exact ih
    · simp only [ha, if_false]
      rw [ih]

theorem find_map_same {rs : List Remote} {d : Nat} {r r' : Remote} (h : rs.find? (fun x => x.dest == d) = some r) (hr : r'.dest = d) :
    (rs.map fun x => if x.dest = d then r' else x).find? (fun x => x.dest == d) = some r' := by
  induction rs with
  | nil => cases h
  | cons a l ih =>
    simp only [List.map_cons, List.find?_cons] at h ⊢
    by_cases ha : a.dest = d
    · simp [ha, hr]
    · simp only [ha, if_false, beq_iff_eq] at h ⊢
      have hb : (a.dest == d) = false := by simpa using ha
      rw [hb] at h ⊢
      exact ih h

theorem find_erase_other {rs : List Remote} {d d' : Nat} (hd : d' ≠ d) :
    (rs.eraseP fun x => x.dest == d).find? (fun x => x.dest == d') = rs.find? fun x => x.dest == d' := by
  induction rs with
  | nil => rfl
  | cons a l ih =>
    by_cases ha : a.dest = d
    · rw [List.eraseP_cons_of_pos (by simp [ha]), List.find?_cons]
      have : (a.dest == d') = false := by simp [ha, Ne.symm hd]
      rw [this]
    · rw [List.eraseP_cons_of_neg (by simp [ha]), List.find?_cons, List.find?_cons, ih]

theorem find_erase_same {rs : List Remote} {d : Nat} (hn : (rs.map (·.dest)).Nodup) : (rs.eraseP fun x => x.dest == d).find? (fun x => x.dest == d) = none := by
  induction rs with
  | nil => rfl
  | cons a l ih =>
    simp only [List.map_cons, List.nodup_cons] at hn
    by_cases ha : a.dest = d
    · rw [List.eraseP_cons_of_pos (by simp [ha]), List.find?_eq_none]
      intro x hx
      simp only [beq_iff_eq]
      intro h
      exact hn.1 (List.mem_map.mpr ⟨x, hx, by rw [h, ha]⟩)
    · rw [List.eraseP_cons_of_neg (by simp [ha]), List.find?_cons]
      have hb : (a.dest == d) = false := by simpa using ha
      rw [hb]
      exact ih hn.2

theorem map_dest_same {rs : List Remote} {d : Nat} {r' : Remote} (hr : r'.dest = d) : (rs.map fun x => if x.dest = d then r' else x).map (·.dest) = rs.map (·.dest) := by
  rw [List.map_map]
  apply List.map_congr_left
  intro x _
  simp only [Function.comp]
  split
  · rename_i h; rw [hr, h]
  · rfl

theorem mem_erase_dests {rs : List Remote} {d d' : Nat} (hn : (rs.map (·.dest)).Nodup) :
    d' ∈ (rs.eraseP fun x => x.dest == d).map (·.dest) ↔ d' ∈ rs.map (·.dest) ∧ d' ≠ d := by
  induction rs with
  | nil => simp
  | cons a l ih =>
    simp only [List.map_cons, List.nodup_cons] at hn
    by_cases ha : a.dest = d
    · rw [List.eraseP_cons_of_pos (by simp [ha])]
      simp only [List.map_cons, List.mem_cons]
      constructor
      · intro h
        refine ⟨.inr h, fun e => hn.1 ?_⟩
        rw [ha, ← e]; exact h
      · rintro ⟨h | h, h2⟩
        · exact absurd (by rw [h, ha]) h2
        · exact h
    · rw [List.eraseP_cons_of_neg (by simp [ha])]
      simp only [List.map_cons, List.mem_cons]
      rw [ih hn.2]
      constructor
      · rintro (h | h)
        · exact ⟨.inl h, by rw [h]; exact ha⟩
        · exact ⟨.inr h.1, h.2⟩
      · rintro ⟨h | h, h2⟩
        · exact .inl h
        · exact .inr ⟨h, h2⟩

theorem CI.erase {c : Coord} (h : CI c) (d : Nat) (t : List Ev) : CI { remotes := c.remotes.eraseP fun r => r.dest == d, write := c.write.erase d, tr := t } :=
  ⟨h.nodup.sublist ((List.eraseP_sublist).map _), fun r hr => h.some_ r (List.mem_of_mem_eraseP hr), fun d' => by
    dsimp only
    rw [mem_erase_dests h.nodup, h.wnodup.mem_erase_iff, h.write, and_comm], h.wnodup.erase d⟩

/-- One destination is dealt with. -/
theorem flushOne_spec {n : Nat} {c : Coord} (h : CI c) (d : Nat) (f : Remote → Remote) (hf : ∀ r, (f r).dest = r.dest) (rs : List Res) :
    CI (c.flushOne n d f rs) ∧ (∀ d', d' ≠ d → (c.flushOne n d f rs).view d' = c.view d') ∧
    (∀ r, c.remotes.find? (fun r => r.dest == d) = some r → Local n d ((f r).queue, (c.view d).2) ((c.flushOne n d f rs).view d)) ∧
    (c.remotes.find? (fun r => r.dest == d) = none → c.flushOne n d f rs = c) := by
  cases hfd : c.remotes.find? fun r => r.dest == d with
  | none =>
    have : c.flushOne n d f rs = c := by unfold Coord.flushOne; rw [hfd]
    rw [this]
    exact ⟨h, fun _ _ => rfl, fun r hr => (by cases hr), fun _ => rfl⟩
  | some r =>
    obtain ⟨hr, hrd⟩ := find_dest hfd
    have hd : (f r).dest = d := by rw [hf, hrd]
    obtain ⟨h1, h2, h3, h4⟩ := remoteSend_spec n (f r) c.write rs
    generalize hx : (f r).send n c.write rs = x at h1 h2 h3 h4
    obtain ⟨o, es, w, rs'⟩ := x
    dsimp only at h1 h2 h3 h4
    rw [hd] at h2 h4
    cases o with
    | none =>
      have he : c.flushOne n d f rs = { remotes := c.remotes.eraseP fun r => r.dest == d, write := w, tr := c.tr ++ es } := by
        unfold Coord.flushOne; rw [hfd]; dsimp only; rw [hx]
      simp only [Option.isSome_none, Bool.false_eq_true, if_false, hd] at h3
      subst h3
      rw [he]
      refine ⟨h.erase d _, fun d' hd' => ?_, ?_, fun h => by cases h⟩
      · simp only [Coord.view, Coord.queueOf, find_erase_other hd', List.filter_append, filter_none h2 hd', List.append_nil]
      · intro r' hr'
        cases hr'
        simp only [Coord.view, Coord.queueOf, find_erase_same h.nodup, List.filter_append, filter_all h2]
        exact h4 _
    | some y =>
      have he : c.flushOne n d f rs = { remotes := c.remotes.map fun x => if x.dest = d then y else x, write := w, tr := c.tr ++ es } := by
        unfold Coord.flushOne; rw [hfd]; dsimp only; rw [hx]
      simp only [Option.isSome_some, if_true] at h3
      subst h3
      obtain ⟨hyd, hyq⟩ := h1 y rfl
      rw [hd] at hyd
      rw [he]
      refine ⟨⟨?_, ?_, ?_, h.wnodup⟩, fun d' hd' => ?_, ?_, fun h => by cases h⟩
      · dsimp only; rw [map_dest_same hyd]; exact h.nodup
      · intro z hz
        simp only [List.mem_map] at hz
        obtain ⟨z', hz', rfl⟩ := hz
        split
        · exact hyq
        · exact h.some_ z' hz'
      · intro d'; dsimp only; rw [map_dest_same hyd]; exact h.write d'
      · simp only [Coord.view, Coord.queueOf, find_map_other hd' hyd, List.filter_append, filter_none h2 hd', List.append_nil]
      · intro r' hr'
        cases hr'
        simp only [Coord.view, Coord.queueOf, find_map_same hfd hyd, List.filter_append, filter_all h2]
        exact h4 _

theorem sendQueue_one {n : Nat} {m : Msg} {cb : Bool} {rs : List Res} :
    let x := partialSend n ⟨m, 0⟩ rs
    let y := sendQueue n [⟨⟨m, 0⟩, cb⟩] rs
    y.1 = x.1 ∧ y.2.2.1 = x.2.2.1 ∧ (x.2.2.1 ≠ .done → y.2.1 = [⟨x.2.1, cb⟩]) := by
  dsimp only
  unfold sendQueue
  dsimp only
  cases ho : (partialSend n ⟨m, 0⟩ rs).2.2.1 with
  | done => simp [sendQueue]
  | blocked => simp
  | failed => simp

theorem partial_msg {n : Nat} : ∀ {rs : List Res} {s : Send}, (partialSend n s rs).2.1.msg = s.msg
  | [], s => by unfold partialSend; split <;> rfl
  | r :: rs, s => by
    unfold partialSend
    split
    · rfl
    · cases r with
      | ok => exact partial_msg (rs := rs) (s := { s with offset := s.offset + s.left n })
      | full => rfl
      | error => rfl

theorem send_spec {n : Nat} {c : Coord} (h : CI c) (d : Nat) (m : Msg) (cb : Bool) (rs : List Res) :
    CI (c.send n d m cb rs) ∧ (∀ d', d' ≠ d → (c.send n d m cb rs).view d' = c.view d') ∧
    ∃ y, Local n d (c.view d) y ∧ y.1 = (c.view d).1 ++ [⟨⟨m, 0⟩, cb⟩] ∧ Local n d y ((c.send n d m cb rs).view d) := by
  have hacc : ∀ d', d' ≠ d → [Ev.accept d m cb].filter (fun e => e.dest == d') = [] := fun d' hd' => filter_none (fun e he => by simp only [List.mem_singleton] at he; subst he; rfl) hd'
  have hacc' : [Ev.accept d m cb].filter (fun e => e.dest == d) = [Ev.accept d m cb] := filter_all (fun e he => by simp only [List.mem_singleton] at he; subst he; rfl)
  have h0 : CI { c with tr := c.tr ++ [.accept d m cb] } := ⟨h.nodup, h.some_, h.write, h.wnodup⟩
  have hpush := Local.push (n := n) (d := d) (c.view d).1 (c.view d).2 m cb
  unfold Coord.send
  dsimp only
  split
  · rename_i ha
    obtain ⟨h1, h2, h3, -⟩ := flushOne_spec (n := n) h0 d (fun r => { r with queue := r.queue ++ [⟨⟨m, 0⟩, cb⟩] }) (fun r => rfl) rs
    refine ⟨h1, fun d' hd' => ?_, _, hpush, rfl, ?_⟩
    · rw [h2 d' hd']
      simp only [Coord.view, Coord.queueOf, List.filter_append, hacc d' hd', List.append_nil]
    · cases hf : c.remotes.find? fun r => r.dest == d with
      | none =>
        rw [List.find?_eq_none] at hf
        obtain ⟨r, hr, hrd⟩ := List.any_eq_true.mp ha
        exact absurd hrd (hf r hr)
      | some r =>
        have := h3 r hf
        have hq : (c.view d).1 = r.queue := by simp only [Coord.view, Coord.queueOf, hf, Option.map_some, Option.getD_some]
        rw [hq]
        simpa only [Coord.view, List.filter_append, hacc'] using this
  · rename_i ha
    have hf : c.remotes.find? (fun r => r.dest == d) = none := by
      rw [List.find?_eq_none]
      intro r hr hrd
      exact ha (List.any_eq_true.mpr ⟨r, hr, hrd⟩)
    have hq : (c.view d).1 = [] := by simp only [Coord.view, Coord.queueOf, hf, Option.map_none, Option.getD_none]
    have hq' : c.queueOf d = [] := hq
    have hw : ∀ e ∈ (partialSend n ⟨m, 0⟩ rs).1.map (Ev.wire d), e.dest = d := by
      intro e he; obtain ⟨f, -, rfl⟩ := List.mem_map.mp he; rfl
    obtain ⟨s1, s2, s3⟩ := sendQueue_one (n := n) (m := m) (cb := cb) (rs := rs)
    cases ho : (partialSend n ⟨m, 0⟩ rs).2.2.1 with
    | done =>
      dsimp only
      refine ⟨⟨h.nodup, h.some_, h.write, h.wnodup⟩, fun d' hd' => ?_, _, hpush, rfl, ?_⟩
      · simp only [Coord.view, Coord.queueOf, List.filter_append, hacc d' hd', filter_none hw hd', List.append_nil]
      · have := Local.flush (n := n) (d := d) [⟨⟨m, 0⟩, cb⟩] ((c.view d).2 ++ [.accept d m cb]) rs (by rw [s2, ho]; simp)
        rw [s1, sendQueue_done (by rw [s2, ho])] at this
        rw [hq]
        simpa only [Coord.view, Coord.queueOf, hf, Option.map_none, Option.getD_none, List.filter_append, hacc', filter_all hw, List.nil_append] using this
    | blocked =>
      dsimp only
      have hnd : d ∉ c.remotes.map (·.dest) := by
        intro hd
        obtain ⟨r, hr, hrd⟩ := List.mem_map.mp hd
        rw [List.find?_eq_none] at hf
        exact hf r hr (by simp [hrd])
      have hnw : d ∉ c.write := fun hd => hnd ((h.write d).mp hd)
      refine ⟨⟨?_, ?_, ?_, ?_⟩, fun d' hd' => ?_, _, hpush, rfl, ?_⟩
      · dsimp only
        rw [List.map_append, List.nodup_append]
        refine ⟨h.nodup, by simp, ?_⟩
        intro a hx b hb
        simp only [List.map_cons, List.map_nil, List.mem_singleton] at hb
        subst hb
        exact fun e => hnd (e ▸ hx)
      · intro r hr
        rcases List.mem_append.mp hr with hr | hr
        · exact h.some_ r hr
        · simp only [List.mem_singleton] at hr; subst hr; simp
      · intro d'
        simp only [writeAdd, hnw, if_false, List.mem_append, List.mem_singleton, List.map_append, List.map_cons, List.map_nil]
        rw [h.write d']
      · simp only [writeAdd, hnw, if_false]
        rw [List.nodup_append]
        refine ⟨h.wnodup, by simp, ?_⟩
        intro a hx b hb
        simp only [List.mem_singleton] at hb
        subst hb
        exact fun e => hnw (e ▸ hx)
      · have : ([{ dest := d, queue := [⟨(partialSend n ⟨m, 0⟩ rs).2.1, cb⟩] }] : List Remote).find? (fun r => r.dest == d') = none := by
          simp [Ne.symm hd']
        simp only [Coord.view, Coord.queueOf, List.filter_append, hacc d' hd', filter_none hw hd', List.append_nil, List.find?_append, this, Option.or_none]
      · have := Local.flush (n := n) (d := d) [⟨⟨m, 0⟩, cb⟩] ((c.view d).2 ++ [.accept d m cb]) rs (by rw [s2, ho]; simp)
        rw [s1, s3 (by rw [ho]; simp)] at this
        rw [hq]
        have hs : ([{ dest := d, queue := [⟨(partialSend n ⟨m, 0⟩ rs).2.1, cb⟩] }] : List Remote).find? (fun r => r.dest == d) = some { dest := d, queue := [⟨(partialSend n ⟨m, 0⟩ rs).2.1, cb⟩] } := by
          simp
        simpa only [Coord.view, Coord.queueOf, List.find?_append, hf, hs, Option.none_or, Option.map_some, Option.getD_some, List.filter_append, hacc', filter_all hw, List.nil_append] using this
    | failed =>
      dsimp only
      have hl : ∀ e ∈ [Ev.lost d m cb], e.dest = d := fun e he => by simp only [List.mem_singleton] at he; subst he; rfl
      refine ⟨⟨h.nodup, h.some_, h.write, h.wnodup⟩, fun d' hd' => ?_, _, hpush, rfl, ?_⟩
      · simp only [Coord.view, Coord.queueOf, List.filter_append, hacc d' hd', filter_none hw hd', filter_none hl hd', List.append_nil]
      · have := Local.fail (n := n) (d := d) [⟨⟨m, 0⟩, cb⟩] ((c.view d).2 ++ [.accept d m cb]) rs (by rw [s2, ho])
        rw [s1, s3 (by rw [ho]; simp)] at this
        have hm : (partialSend n ⟨m, 0⟩ rs).2.1.msg = m := partial_msg
        rw [hq]
        simpa only [Coord.view, Coord.queueOf, hf, Option.map_none, Option.getD_none, List.filter_append, hacc', filter_all hw, filter_all hl, List.nil_append, lostAll,
          List.map_cons, List.map_nil, hm, List.append_assoc] using this

theorem failed_spec {n : Nat} {c : Coord} (h : CI c) (d : Nat) : CI (c.failed d) ∧ (∀ d', d' ≠ d → (c.failed d).view d' = c.view d') ∧ Local n d (c.view d) ((c.failed d).view d) := by
  unfold Coord.failed
  cases hf : c.remotes.find? fun r => r.dest == d with
  | none =>
    refine ⟨h, fun _ _ => rfl, ?_⟩
    have hq : (c.view d) = ([], (c.view d).2) := by simp only [Coord.view, Coord.queueOf, hf, Option.map_none, Option.getD_none]
    have := Local.lose (n := n) (d := d) [] (c.view d).2
    rw [show lostAll d [] = [] from rfl, List.append_nil, ← hq] at this
    exact this
  | some r =>
    obtain ⟨hr, hrd⟩ := find_dest hf
    have hl : ∀ e ∈ lostAll d r.queue, e.dest = d := fun e he => by simp only [lostAll, List.mem_map] at he; obtain ⟨p, -, rfl⟩ := he; rfl
    refine ⟨h.erase d _, fun d' hd' => ?_, ?_⟩
    · simp only [Coord.view, Coord.queueOf, find_erase_other hd', List.filter_append, filter_none hl hd', List.append_nil]
    · have hq : (c.view d) = (r.queue, (c.view d).2) := by simp only [Coord.view, Coord.queueOf, hf, Option.map_some, Option.getD_some]
      rw [hq]
      simp only [Coord.view, Coord.queueOf, find_erase_same h.nodup, List.filter_append, filter_all hl]
      exact Local.lose _ _

/-- All destinations. -/
theorem sendAll_spec (n : Nat) : ∀ (l : List Remote) (w : List Nat) (rs : List Res), (l.map (·.dest)).Nodup → (∀ d ∈ l.map (·.dest), d ∈ w) → w.Nodup →
    let x := sendAll n l w rs
    (∀ r ∈ x.1, r.queue ≠ []) ∧ (x.1.map (·.dest)).Sublist (l.map (·.dest)) ∧ x.2.2.Nodup ∧ (∀ d, d ∈ x.2.2 ↔ d ∈ w ∧ (d ∉ l.map (·.dest) ∨ d ∈ x.1.map (·.dest))) ∧
    (∀ e ∈ x.2.1, e.dest ∈ l.map (·.dest)) ∧
    ∀ r ∈ l, ∀ t, Local n r.dest (r.queue, t) ((((x.1.find? fun y => y.dest == r.dest).map (·.queue)).getD []), t ++ x.2.1.filter fun e => e.dest == r.dest)
  | [], w, rs, _, _, hw => by
    refine ⟨fun r hr => (by cases hr), List.Sublist.refl _, hw, fun d => ?_, fun e he => (by cases he), fun r hr => by cases hr⟩
    simp [sendAll]
  | r :: l, w, rs, hn, hin, hw => by
    simp only [List.map_cons, List.nodup_cons] at hn
    obtain ⟨h1, h2, h3, h4⟩ := remoteSend_spec n r w rs
    dsimp only [sendAll]
    generalize r.send n w rs = x at h1 h2 h3 h4
    obtain ⟨o, es, w', rs'⟩ := x
    dsimp only at h1 h2 h3 h4
    have hw' : w'.Nodup := by rw [h3]; split; exact hw; exact hw.erase _
    have hin' : ∀ d ∈ l.map (·.dest), d ∈ w' := by
      intro d hd
      have hdw := hin d (by simp only [List.map_cons, List.mem_cons]; exact .inr hd)
      rw [h3]
      split
      · exact hdw
      · exact (hw.mem_erase_iff).mpr ⟨fun e => hn.1 (e ▸ hd), hdw⟩
    obtain ⟨i1, i2, i3, i4, i5, i6⟩ := sendAll_spec n l w' rs' hn.2 hin' hw'
    generalize sendAll n l w' rs' = y at i1 i2 i3 i4 i5 i6
    obtain ⟨ls, es', w''⟩ := y
    dsimp only at i1 i2 i3 i4 i5 i6
    dsimp only
    have hnot : ∀ z ∈ ls, z.dest ≠ r.dest := fun z hz e => hn.1 (by rw [← e]; exact i2.subset (List.mem_map.mpr ⟨z, hz, rfl⟩))
    have hnotd : r.dest ∉ ls.map (·.dest) := fun hz => hn.1 (i2.subset hz)
    have hes' : es'.filter (fun e => e.dest == r.dest) = [] := List.filter_eq_nil_iff.mpr fun e he => by
      simp only [beq_iff_eq]; intro h; exact hn.1 (by rw [← h]; exact i5 e he)
    refine ⟨?_, ?_, i3, fun d => ?_, ?_, ?_⟩
    · intro z hz
      rcases List.mem_append.mp hz with hz | hz
      · rw [Option.mem_toList] at hz; exact (h1 z hz).2
      · exact i1 z hz
    · cases o with
      | none => simp only [Option.toList_none, List.nil_append, List.map_cons]; exact i2.trans (List.sublist_cons_self _ _)
      | some y => simp only [Option.toList_some, List.cons_append, List.nil_append, List.map_cons, (h1 y rfl).1]; exact i2.cons_cons _
    · rw [i4 d, h3]
      have hrw : r.dest ∈ w := hin _ (by simp)
      cases o with
      | none =>
        simp only [Option.isSome_none, Bool.false_eq_true, if_false, hw.mem_erase_iff, Option.toList_none, List.nil_append, List.map_cons, List.mem_cons, not_or]
        constructor
        · rintro ⟨⟨a, b⟩, c⟩
          refine ⟨b, ?_⟩
          rcases c with c | c
          · exact .inl ⟨a, c⟩
          · exact .inr c
        · rintro ⟨b, c⟩
          rcases c with ⟨a, c⟩ | c
          · exact ⟨⟨a, b⟩, .inl c⟩
          · exact ⟨⟨fun e => hnotd (e ▸ c), b⟩, .inr c⟩
      | some y =>
        simp only [Option.isSome_some, if_true, Option.toList_some, List.cons_append, List.nil_append, List.map_cons, List.mem_cons, not_or, (h1 y rfl).1]
        constructor
        · rintro ⟨b, c⟩
          refine ⟨b, ?_⟩
          by_cases e : d = r.dest
          · exact .inr (.inl e)
          · rcases c with c | c
            · exact .inl ⟨e, c⟩
            · exact .inr (.inr c)
        · rintro ⟨b, c⟩
          refine ⟨b, ?_⟩
          rcases c with ⟨-, c⟩ | c | c
          · exact .inl c
          · exact .inl (by rw [c]; exact hn.1)
          · exact .inr c
    · intro e he
      rcases List.mem_append.mp he with he | he
      · simp [h2 e he]
      · simp only [List.map_cons, List.mem_cons]; exact .inr (i5 e he)
    · intro z hz t
      rcases List.mem_cons.mp hz with rfl | hz
      · rw [List.filter_append, filter_all h2, hes', List.append_nil]
        have hfn : ls.find? (fun y => y.dest == z.dest) = none := List.find?_eq_none.mpr fun y hy => by simp [hnot y hy]
        cases o with
        | none => simpa [hfn] using h4 t
        | some y => simpa [(h1 y rfl).1] using h4 t
      · have hzr : z.dest ≠ r.dest := fun e => hn.1 (by rw [← e]; exact List.mem_map.mpr ⟨z, hz, rfl⟩)
        rw [List.filter_append, filter_none h2 hzr, List.nil_append]
        have : (o.toList ++ ls).find? (fun y => y.dest == z.dest) = ls.find? fun y => y.dest == z.dest := by
          rw [List.find?_append]
          have : o.toList.find? (fun y => y.dest == z.dest) = none := List.find?_eq_none.mpr fun y hy => by
            rw [Option.mem_toList] at hy; simp [(h1 y hy).1, Ne.symm hzr]
          rw [this]; rfl
        rw [this]
        exact i6 z hz t

theorem batch_spec {n : Nat} {c : Coord} (h : CI c) (rs : List Res) : CI (c.batch n rs) ∧ ∀ d, Locals n d (c.view d) ((c.batch n rs).view d) := by
  obtain ⟨h1, h2, h3, h4, h5, h6⟩ := sendAll_spec n c.remotes c.write rs h.nodup (fun d hd => (h.write d).mpr hd) h.wnodup
  refine ⟨⟨h.nodup.sublist h2, h1, fun d => ?_, h3⟩, fun d => ?_⟩
  · show d ∈ (sendAll n c.remotes c.write rs).2.2 ↔ _
    rw [h4 d, h.write d]
    constructor
    · rintro ⟨a, b | b⟩
      · exact absurd a b
      · exact b
    · intro b; exact ⟨h2.subset b, .inr b⟩
  · cases hf : c.remotes.find? fun r => r.dest == d with
    | none =>
      have hnd : d ∉ c.remotes.map (·.dest) := fun hd => by
        obtain ⟨r, hr, hrd⟩ := List.mem_map.mp hd
        rw [List.find?_eq_none] at hf
        exact hf r hr (by simp [hrd])
      have hv : (c.batch n rs).view d = c.view d := by
        have hz : (sendAll n c.remotes c.write rs).1.find? (fun r => r.dest == d) = none := List.find?_eq_none.mpr fun y hy hyd => by
          simp only [beq_iff_eq] at hyd
          exact hnd (h2.subset (List.mem_map.mpr ⟨y, hy, hyd⟩))
        have he : (sendAll n c.remotes c.write rs).2.1.filter (fun e => e.dest == d) = [] := List.filter_eq_nil_iff.mpr fun e he => by
          simp only [beq_iff_eq]; intro hx; exact hnd (hx ▸ h5 e he)
        simp only [Coord.view, Coord.queueOf, Coord.batch, hz, hf, List.filter_append, he, List.append_nil]
      rw [hv]
      exact .refl _
    | some r =>
      obtain ⟨hr, hrd⟩ := find_dest hf
      have := h6 r hr (c.view d).2
      rw [hrd] at this
      have hq : (c.view d) = (r.queue, (c.view d).2) := by simp only [Coord.view, Coord.queueOf, hf, Option.map_some, Option.getD_some]
      rw [hq]
      apply Local.locals
      simpa only [Coord.view, Coord.queueOf, Coord.batch, List.filter_append] using this

theorem step_spec {n : Nat} {c : Coord} (h : CI c) (i : In) : CI (c.step n i) ∧ ∀ d, Locals n d (c.view d) ((c.step n i).view d) := by
  cases i with
  | send d m cb rs =>
    obtain ⟨h1, h2, y, h3, -, h4⟩ := send_spec (n := n) h d m cb rs
    refine ⟨h1, fun d' => ?_⟩
    by_cases hd : d' = d
    · subst hd; exact .tail h3.locals h4
    · show Locals n d' (c.view d') ((c.send n d m cb rs).view d')
      rw [h2 d' hd]; exact .refl _
  | writable d rs =>
    obtain ⟨h1, h2, h3, h4⟩ := flushOne_spec (n := n) h d id (fun _ => rfl) rs
    refine ⟨h1, fun d' => ?_⟩
    by_cases hd : d' = d
    · subst hd
      show Locals n d' (c.view d') ((c.flushOne n d' id rs).view d')
      cases hf : c.remotes.find? fun r => r.dest == d' with
      | none => rw [h4 hf]; exact .refl _
      | some r =>
        have hq : (c.view d') = (r.queue, (c.view d').2) := by simp only [Coord.view, Coord.queueOf, hf, Option.map_some, Option.getD_some]
        have := h3 r hf
        rw [hq]
        exact this.locals
    · show Locals n d' (c.view d') ((c.flushOne n d id rs).view d')
      rw [h2 d' hd]; exact .refl _
  | batch rs => exact batch_spec h rs
  | failed d =>
    obtain ⟨h1, h2, h3⟩ := failed_spec (n := n) h d
    refine ⟨h1, fun d' => ?_⟩
    by_cases hd : d' = d
    · subst hd; exact h3.locals
    · show Locals n d' (c.view d') ((c.failed d).view d')
      rw [h2 d' hd]; exact .refl _

theorem CI.init : CI Coord.init := ⟨by simp [Coord.init], fun r hr => (by cases hr), fun d => by simp [Coord.init], by simp [Coord.init]⟩

theorem CI.run {n : Nat} (is : List In) : ∀ {c : Coord}, CI c → CI (c.run n is) := by
  induction is with
  | nil => exact fun h => h
  | cons i is ih => exact fun h => ih (step_spec h i).1

end Casual.Ipc
