import Verif.Service.Due
/-! The configured timeout bounds the time left that callers are told. -/
namespace Casual.Service

/-- A timeout of at most `d`. -/
def Within (d : Int) (t : Option Int) : Prop := ∃ y, t = some y ∧ 0 < y ∧ y ≤ d

/-- The services have timeouts services had before. -/
def SvcBack (s s' : State) : Prop := ∀ v' ∈ s'.services, ∃ v ∈ s.services, v'.timeout = v.timeout

theorem SvcBack.refl {s s' : State} (h : s'.services = s.services) : SvcBack s s' := fun v hv => ⟨v, by rw [h] at hv; exact hv, rfl⟩

theorem svcBack_map {s s' : State} {f : Svc → Svc} (h : s'.services = s.services.map f) (hf : ∀ v, (f v).timeout = v.timeout) : SvcBack s s' := by
  intro v hv
  rw [h] at hv
  obtain ⟨w, hw, rfl⟩ := List.mem_map.mp hv
  exact ⟨w, hw, hf w⟩

structure LInv (d : Int) (s : State) : Prop where
  to : s.timeout = some d
  svc : ∀ v ∈ s.services, Within d v.timeout
  dl : ∀ e ∈ s.deadlines, ∃ now, clock s.tr = some now ∧ e.when_ ≤ now + d
  good : AllGood (GoodBound d) s.tr

/-- Nothing is told about time. -/
def LQuiet (e : Ev) : Prop := noRecv e ∧ ∀ d a, GoodBound d a e

theorem LInv.keeps {d : Int} {s s' : State} (h : LInv d s) {es : List Ev} (ht : s'.tr = s.tr ++ es) (hq : ∀ e ∈ es, LQuiet e)
    (hto : s'.timeout = s.timeout) (hb : ∀ v ∈ s'.services, Within d v.timeout) (hd : ∀ d ∈ s'.deadlines, d ∈ s.deadlines) : LInv d s' := by
  obtain ⟨h1, h2, h3, h4⟩ := h
  refine ⟨by rw [hto]; exact h1, hb, fun e he => ?_, ?_⟩
  · rw [ht, clock_quiet fun e he => (hq e he).1]; exact h3 e (hd e he)
  · rw [ht]; exact h4.append fun a e he => (hq e he).2 _ _

theorem LInv.back {d : Int} {s s' : State} (h : LInv d s) (hb : SvcBack s s') : ∀ v ∈ s'.services, Within d v.timeout := by
  intro v hv
  obtain ⟨w, hw, he⟩ := hb v hv
  rw [he]; exact h.svc w hw

theorem calc_within {d : Int} {timeout : Option Int} {now : Time} {r : Option Time} (h : Within d timeout) : ∃ t, calcDeadline timeout now r = some t ∧ t ≤ now + d := by
  obtain ⟨y, rfl, hy, hle⟩ := h
  unfold calcDeadline
  dsimp only
  rw [if_pos hy]
  cases r with
  | none => exact ⟨_, rfl, Int.add_le_add_left hle _⟩
  | some c =>
    dsimp only
    split
    · exact ⟨_, rfl, Int.add_le_add_left hle _⟩
    · rename_i hc
      exact ⟨_, rfl, Int.le_trans (Int.not_lt.mp hc) (Int.add_le_add_left hle _)⟩

theorem left_within {d : Int} {t now : Time} (h : t ≤ now + d) : t - now ≤ d := Int.sub_left_le_of_le_add h

/-- The invariant, and what time it is. -/
def LInvAt (d : Int) (e : Env) (s : State) : Prop := Inv s ∧ LInv d s ∧ clock s.tr = some e.now

theorem LInv.outcome {d : Int} {s s' : State} {r : Req} {e : Env} (h : LInvAt d e s) (o : Outcome s r e s') : LInvAt d e s' := by
  obtain ⟨hi, h, hc⟩ := h
  have hsv : ∀ {v}, s.svc? r.name = some v → Within d v.timeout := fun hv => h.svc _ (svc?_some hv).1
  refine ⟨hi.outcome o, ?_, ?_⟩
  · cases o with
    | absent => exact h.keeps rfl (by simp [LQuiet, noRecv, GoodBound]) rfl h.svc (fun _ => id)
    | discover =>
      rw [discover_eq]
      split
      · exact h.keeps rfl (by simp [LQuiet, noRecv, GoodBound]) rfl h.svc (fun _ => id)
      · refine h.keeps (es := [.discover r.name r.corr, .absent r.proc.ipc r.corr r.name]) ?_ (by simp [LQuiet, noRecv, GoodBound]) rfl h.svc (fun _ => id)
        show (s.tr ++ [_]) ++ [_] = _
        simp
    | forward => exact h.keeps rfl (by simp [LQuiet, noRecv, GoodBound]) rfl h.svc (fun _ => id)
    | pending v h1 h2 h3 h4 =>
      refine ⟨h.to, h.svc, fun x hx => ?_, h.good⟩
      revert hx
      show x ∈ pendDl s v r e → _
      unfold pendDl
      split
      · exact h.dl x
      · obtain ⟨t, ht, hle⟩ := calc_within (now := e.now) (r := r.deadline) (hsv h1)
        rw [ht]
        intro hx
        rcases mem_add hx with rfl | hx
        · exact ⟨_, hc, hle⟩
        · exact h.dl x hx
    | seq v i x h1 h2 h3 h4 =>
      obtain ⟨t, ht, hle⟩ := calc_within (now := e.now) (r := r.deadline) (hsv h1)
      have hcl : ∀ ev, noRecv ev → clock (s.tr ++ [ev]) = some e.now := fun ev hev => by rw [clock_quiet (by simpa using hev)]; exact hc
      refine ⟨h.to, h.svc, fun y hy => ?_, ?_⟩
      · refine ⟨e.now, hcl _ trivial, ?_⟩
        revert hy
        show y ∈ (seqDl s v i r e).1 → _
        unfold seqDl
        split
        · intro hy
          obtain ⟨d', hd, -, hw⟩ := mem_claim hy
          obtain ⟨now, hn, hle⟩ := h.dl d' hd
          rw [hc] at hn; cases hn
          rw [← hw]; exact hle
        · rw [ht]
          intro hy
          rcases mem_add hy with rfl | hy
          · exact hle
          · obtain ⟨now, hn, hle⟩ := h.dl y hy
            rw [hc] at hn; cases hn
            exact hle
      · refine h.good.snoc fun _ => ?_
        unfold seqDl
        split
        · rename_i y hy
          obtain ⟨now, hn, hle⟩ := h.dl y (List.mem_of_find?_eq_some hy)
          rw [hc] at hn; cases hn
          exact ⟨_, rfl, left_within hle⟩
        · rw [ht]
          exact ⟨_, rfl, left_within hle⟩
    | con v i x h1 h2 h3 h4 h5 =>
      obtain ⟨t, ht, hle⟩ := calc_within (now := e.now) (r := r.deadline) (hsv h1)
      refine ⟨h.to, h.svc, fun y hy => ?_, ?_⟩
      · obtain ⟨now, hn, hle⟩ := h.dl y hy
        exact ⟨now, by show clock (s.tr ++ [_]) = _; rw [clock_snoc]; exact hn, hle⟩
      · refine h.good.snoc fun _ => ?_
        rw [ht]
        exact ⟨_, rfl, left_within hle⟩
  · cases o with
    | absent => show clock (s.tr ++ [_]) = _; rw [clock_snoc]; exact hc
    | discover =>
      rw [discover_eq]
      split
      · show clock (s.tr ++ [_]) = _; rw [clock_snoc]; exact hc
      · show clock ((s.tr ++ [_]) ++ [_]) = _; rw [clock_snoc, clock_snoc]; exact hc
    | forward => show clock (s.tr ++ [_]) = _; rw [clock_snoc]; exact hc
    | pending => exact hc
    | seq => show clock (s.tr ++ [_]) = _; rw [clock_snoc]; exact hc
    | con => show clock (s.tr ++ [_]) = _; rw [clock_snoc]; exact hc

theorem LInv.lookup {d : Int} {s : State} {r : Req} {e : Env} (h : LInvAt d e s) : LInvAt d e (s.lookup r e) :=
  LInv.outcome h (lookup_outcome h.1 r e)

theorem LInv.again {d : Int} {e : Env} (ls : List Lookup) {s : State} (h : LInvAt d e s) : LInvAt d e (s.again ls e) := by
  unfold State.again
  induction ls generalizing s with
  | nil => exact h
  | cons l ls ih => exact ih (LInv.lookup h)

theorem LInv.takePending {d : Int} {s : State} {e : Env} (h : LInvAt d e s) (i : Nat) : LInvAt d e (s.takePending i e) := by
  rw [takePending_eq]
  split
  · rename_i l hl
    refine LInv.lookup ⟨h.1.same ⟨rfl, rfl, rfl⟩, ?_, h.2.2⟩
    exact h.2.1.keeps (es := []) (by simp) (by simp) rfl h.2.1.svc (fun _ => id)
  · exact h

theorem lquiet_shutdown {es : List Ev} (h : ∀ e ∈ es, ∃ a b c, e = .shutdown a b c) : ∀ e ∈ es, LQuiet e := by
  intro e he
  obtain ⟨x, y, z, rfl⟩ := h e he
  exact ⟨trivial, fun _ _ => trivial⟩

theorem svc_insert {d : Int} {s : State} {n : Nat} {t : Option Int} (h : ∀ v ∈ s.services, Within d v.timeout) (ht : Within d t) : ∀ v ∈ (s.insertSvc n t).services, Within d v.timeout := by
  unfold State.insertSvc
  split
  · exact h
  · intro v hv
    rcases List.mem_append.mp hv with hv | hv
    · exact h v hv
    · rw [List.mem_singleton] at hv; subst hv; exact ht

theorem insert_timeout (s : State) (n : Nat) (t : Option Int) : (s.insertSvc n t).timeout = s.timeout := by
  unfold State.insertSvc
  split <;> rfl

theorem svc_modify {d : Int} {s : State} {n : Nat} {f : Svc → Svc} (h : ∀ v ∈ s.services, Within d v.timeout) (hf : ∀ v, (f v).timeout = v.timeout) :
    ∀ v ∈ (s.modifySvc n f).services, Within d v.timeout := by
  intro v hv
  obtain ⟨w, hw, rfl⟩ := List.mem_map.mp hv
  split
  · rw [hf]; exact h w hw
  · exact h w hw

theorem svc_addSeqs {d : Int} (hd : 0 < d) (i : Nat) (s : State) (add : List Nat) (hto : s.timeout = some d) (h : ∀ v ∈ s.services, Within d v.timeout) :
    ∀ v ∈ (add.foldl (State.addSeqService i) s).services, Within d v.timeout := by
  induction add generalizing s with
  | nil => exact h
  | cons n add ih =>
    refine ih _ ?_ ?_
    · show (s.insertSvc n s.timeout).timeout = _
      rw [insert_timeout]; exact hto
    · show ∀ v ∈ (((s.insertSvc n s.timeout).modifySeq i _).modifySvc n _).services, _
      refine svc_modify ?_ (fun v => by unfold Svc.addSeq; split <;> rfl)
      exact svc_insert h ⟨d, hto, hd, Int.le_refl _⟩

theorem svc_addCons {d : Int} (i : Nat) (o : Int) (s : State) (add : List (Nat × Int × Option Int)) (ha : ∀ x ∈ add, ∃ y, x.2.2 = some y ∧ 0 < y ∧ y ≤ d)
    (h : ∀ v ∈ s.services, Within d v.timeout) : ∀ v ∈ (add.foldl (State.addConService i o) s).services, Within d v.timeout := by
  induction add generalizing s with
  | nil => exact h
  | cons n add ih =>
    refine ih _ (fun x hx => ha x (List.mem_cons_of_mem _ hx)) ?_
    refine svc_modify (svc_insert h ?_) (fun v => by unfold Svc.addCon; split <;> rfl)
    obtain ⟨y, hy, h0, hle⟩ := ha n List.mem_cons_self
    rw [hy]
    dsimp only
    rw [if_pos h0]
    exact ⟨y, rfl, h0, hle⟩

theorem svc_prepareAll {d : Int} (s : State) (r : List Nat × List Nat × List Proc) (ps : List Proc) (h : ∀ v ∈ s.services, Within d v.timeout) :
    ∀ v ∈ (s.prepareAll r ps).1.services, Within d v.timeout := by
  induction ps generalizing s r with
  | nil => exact h
  | cons p ps ih =>
    rw [prepareAll_cons]
    refine ih _ _ ?_
    rcases prepareOne_eq s r p with ⟨i, x, -, -, e, -⟩ | ⟨-, e⟩
    · rw [e]
      intro v hv
      obtain ⟨w, hw, rfl⟩ := List.mem_map.mp hv
      split
      · exact h w hw
      · exact h w hw
    · rw [e]; exact h

theorem svc_without {d : Int} {s : State} (p : Proc → Bool) (h : ∀ v ∈ s.services, Within d v.timeout) : ∀ v ∈ (s.without p).services, Within d v.timeout := by
  intro v hv
  obtain ⟨w, hw, rfl⟩ := List.mem_map.mp hv
  exact h w hw

theorem svc_ifmap {d : Int} {l : List Svc} {P : Svc → Prop} [DecidablePred P] {f : Svc → Svc} (h : ∀ v ∈ l, Within d v.timeout) (hf : ∀ v, (f v).timeout = v.timeout) :
    ∀ v ∈ l.map (fun v => if P v then f v else v), Within d v.timeout := by
  intro v hv
  obtain ⟨w, hw, rfl⟩ := List.mem_map.mp hv
  split
  · rw [hf]; exact h w hw
  · exact h w hw

theorem ackPrep_timeout (s : State) (p : Proc) (corr : Nat) (t : Option Nat) (e : Env) : (s.ackPrep p corr t e).timeout = s.timeout := by
  have : ∀ u : State, (u.notifyTM p t).timeout = u.timeout := by
    intro u
    unfold State.notifyTM
    split
    · rfl
    · split <;> rfl
  unfold State.ackPrep
  exact this _

theorem LInv.step {d : Int} (h0 : 0 < d) {s : State} (hi : Inv s) (h : LInv d s) (m : In) (hw : m.within d) (hfw : Forward s.tr (.recv m)) : LInv d (s.step m) := by
  have hi' : Inv (s.emit (.recv m)) := hi.same ⟨rfl, rfl, rfl⟩
  have hb : LInv d (s.emit (.recv m)) := by
    refine ⟨h.to, h.svc, fun e he => ?_, h.good.snoc trivial⟩
    obtain ⟨now, hn, hle⟩ := h.dl e he
    show ∃ now, clock (s.tr ++ [.recv m]) = some now ∧ _
    rw [clock_snoc]
    show ∃ now, m.time.or (clock s.tr) = some now ∧ _
    cases hm : m.time with
    | none => exact ⟨now, hn, hle⟩
    | some now' => exact ⟨now', rfl, Int.le_trans hle (Int.add_le_add_right (hfw now now' hn hm) _)⟩
  have hclk : ∀ e : Env, m.time = some e.now → clock (s.emit (.recv m)).tr = some e.now := by
    intro e he
    show clock (s.tr ++ [.recv m]) = _
    rw [clock_snoc]
    show m.time.or _ = _
    rw [he]; rfl
  cases m with
  | lookup r e => exact (LInv.lookup (e := e) ⟨hi', hb, hclk e rfl⟩).2.1
  | advertise p alias add remove e =>
    show LInv d ((s.emit _).advertise p alias add remove e)
    have hc := hclk e rfl
    rw [advertise_eq]
    split
    · rw [remove_eq hi']
      exact hb.keeps (es := []) (by simp [State.without]) (by simp) rfl (svc_without _ hb.svc) (fun _ => id)
    · have hfr := seqFor_eq (s.emit (.recv (.advertise p alias add remove e))) p alias
      have hsi := seqFor_isSome (s.emit (.recv (.advertise p alias add remove e))) p alias
      have hsf := hi'.seqFor p alias
      generalize (s.emit (.recv (.advertise p alias add remove e))).seqFor p alias = r at hfr hsi hsf ⊢
      obtain ⟨i, t⟩ := r
      dsimp only at hfr hsi hsf ⊢
      split
      · exact hb.keeps (es := []) (by rw [hfr]; simp) (by simp) (by rw [hfr]) (by rw [hfr]; exact hb.svc) (by rw [hfr]; exact fun _ => id)
      · have hfr2 := addSeqServices_frame i t (add.filter fun n => (s.emit (.recv (.advertise p alias add remove e))).allowed alias n)
        have hsv := svc_addSeqs h0 i t (add.filter fun n => (s.emit (.recv (.advertise p alias add remove e))).allowed alias n) (by rw [hfr]; exact hb.to) (by rw [hfr]; exact hb.svc)
        refine (LInv.takePending (e := e) ⟨(hsf.addSeqServices hsi _).removeSeqServices _ _, ?_, ?_⟩ _).2.1
        · generalize (add.filter fun n => (s.emit (.recv (.advertise p alias add remove e))).allowed alias n).foldl (State.addSeqService i) t = u at hfr2 hsv
          refine hb.keeps (es := []) ?_ (by simp) ?_ ?_ ?_
          · show u.tr = _
            rw [hfr2, hfr]; simp
          · show u.timeout = _
            rw [hfr2, hfr]
          · exact svc_ifmap hsv fun v => rfl
          · show ∀ d ∈ u.deadlines, _
            rw [hfr2, hfr]; exact fun _ => id
        · generalize (add.filter fun n => (s.emit (.recv (.advertise p alias add remove e))).allowed alias n).foldl (State.addSeqService i) t = u at hfr2
          show clock u.tr = _
          rw [hfr2, hfr]; exact hc
  | cadvertise p alias order add remove e =>
    show LInv d ((s.emit _).cadvertise p alias order add remove e)
    have hc := hclk e rfl
    rw [cadvertise_eq, takeReady_eq]
    have hcf := conFor_eq (s.emit (.recv (.cadvertise p alias order add remove e))) p alias order
    have hinv := hi'.conFor p alias order
    have hsome := conFor_isSome (s.emit (.recv (.cadvertise p alias order add remove e))) p alias order
    generalize (s.emit (.recv (.cadvertise p alias order add remove e))).conFor p alias order = r at hcf hinv hsome ⊢
    obtain ⟨i, t⟩ := r
    dsimp only at hcf hinv hsome ⊢
    have hfr := addConServices_frame i order t (add.filter fun n => (s.emit (.recv (.cadvertise p alias order add remove e))).allowed alias n.1)
    have hsv := svc_addCons i order t (add.filter fun n => (s.emit (.recv (.cadvertise p alias order add remove e))).allowed alias n.1) (fun x hx => hw x (List.mem_filter.mp hx).1) (by rw [hcf]; exact hb.svc)
    have hinv2 := (hinv.addConServices hsome order (add.filter fun n => (s.emit (.recv (.cadvertise p alias order add remove e))).allowed alias n.1)).removeConServices i remove
    generalize (add.filter fun n => (s.emit (.recv (.cadvertise p alias order add remove e))).allowed alias n.1).foldl (State.addConService i order) t = u at hfr hinv2 hsv ⊢
    have hb2 : LInv d (u.removeConServices i remove) ∧ clock (u.removeConServices i remove).tr = some e.now := by
      refine ⟨hb.keeps (es := []) ?_ (by simp) ?_ ?_ ?_, ?_⟩
      · show u.tr = _
        rw [hfr, hcf]; simp
      · show u.timeout = _
        rw [hfr, hcf]
      · exact svc_ifmap hsv fun v => rfl
      · show ∀ d ∈ u.deadlines, _
        rw [hfr, hcf]; exact fun _ => id
      · show clock u.tr = _
        rw [hfr, hcf]; exact hc
    generalize u.removeConServices i remove = w at hb2 hinv2 ⊢
    refine (LInv.again (e := e) _ ⟨?_, ?_, ?_⟩).2.1
    · exact hinv2.same ⟨rfl, rfl, rfl⟩
    · exact hb2.1.keeps (es := []) (by simp) (by simp) rfl hb2.1.svc (fun _ => id)
    · exact hb2.2
  | creset p =>
    show LInv d ((s.emit _).remove _).1
    rw [remove_eq hi']
    exact hb.keeps (es := []) (by simp [State.without]) (by simp) rfl (svc_without _ hb.svc) (fun _ => id)
  | cinstance p alias order =>
    show LInv d ((s.emit _).cinstance p alias order)
    unfold State.cinstance
    split
    · exact hb
    · exact hb.keeps (es := []) (by simp) (by simp) rfl (hb.back (svcBack_map rfl fun _ => rfl)) (fun _ => id)
  | discard p corr reply =>
    show LInv d ((s.emit _).discard p corr reply)
    rw [discard_eq]
    split
    · exact hb.keeps (es := if reply then [.discarded p.ipc corr true] else []) rfl (by cases reply <;> simp [LQuiet, noRecv, GoodBound]) rfl hb.svc (fun _ => id)
    · exact hb.keeps (es := if reply then [.discarded p.ipc corr false] else []) rfl (by cases reply <;> simp [LQuiet, noRecv, GoodBound]) rfl hb.svc (fun _ => id)
  | ack p corr trid e =>
    show LInv d ((s.emit _).ack p corr trid e)
    have hc := hclk e rfl
    rw [ack_eq]
    obtain ⟨es, ht, hq⟩ := ackPrep_tr (s.emit (.recv (.ack p corr trid e))) p corr trid e
    have hs := ackPrep_same (s.emit (.recv (.ack p corr trid e))) p corr trid e
    have hto := ackPrep_timeout (s.emit (.recv (.ack p corr trid e))) p corr trid e
    obtain ⟨hl, hd, -⟩ := ackPrep_lookups (s.emit (.recv (.ack p corr trid e))) p corr trid e
    have hpi := hi'.same hs
    have hq' : ∀ x ∈ es, LQuiet x := fun x hx => by obtain ⟨y, rfl⟩ := hq x hx; exact ⟨trivial, fun _ _ => trivial⟩
    generalize (s.emit (.recv (.ack p corr trid e))).ackPrep p corr trid e = t at ht hs hpi hl hd hto
    have ht3 : LInv d t := by
      refine hb.keeps ht hq' hto (by rw [hs.services]; exact hb.svc) (fun d hdm => ?_)
      rw [hd] at hdm
      exact mem_remove hdm
    have htc : clock t.tr = some e.now := by rw [ht, clock_quiet fun x hx => (hq' x hx).1]; exact hc
    split
    · exact ht3
    · split
      · exact ht3.keeps (es := (ackShutdown p corr t.shutdowns).2) rfl (lquiet_shutdown ackShutdown_shutdown) rfl ht3.svc (fun _ => id)
      · refine (LInv.takePending (e := e) ⟨?_, ?_, ?_⟩ _).2.1
        · exact hpi.free _ rfl rfl rfl
        · exact ht3.keeps (es := []) (by simp [State.modifySeq]) (by simp) rfl ht3.svc (fun _ => id)
        · exact htc
  | exit pid e =>
    show LInv d ((s.emit _).exit pid e)
    have hc := hclk e rfl
    rw [exit_eq hi']
    have heq : ((s.emit (.recv (.exit pid e))).exitPrep pid).tr = (s.emit (.recv (.exit pid e))).tr ++ ((failShutdown pid s.shutdowns).2 ++ (s.callers (s.seqIds fun q => q.pid == pid)).map fun c => Ev.error c.1.ipc c.2 .serviceError) := by
      show ((s.tr ++ [_]) ++ _) ++ _ = _
      rw [List.append_assoc]; rfl
    have hq : ∀ x ∈ ((failShutdown pid s.shutdowns).2 ++ (s.callers (s.seqIds fun q => q.pid == pid)).map fun c => Ev.error c.1.ipc c.2 .serviceError), LQuiet x := by
      intro x hx
      rcases List.mem_append.mp hx with hx | hx
      · obtain ⟨a, b, c, rfl⟩ := failShutdown_shutdown x hx; exact ⟨trivial, fun _ _ => trivial⟩
      · obtain ⟨c, -, rfl⟩ := List.mem_map.mp hx; exact ⟨trivial, fun _ _ => trivial⟩
    refine (LInv.again (e := e) _ ⟨?_, ?_, ?_⟩).2.1
    · exact (hi'.without fun q => q.pid == pid).same ⟨rfl, rfl, rfl⟩
    · exact hb.keeps heq hq rfl (svc_without _ hb.svc) (fun _ => id)
    · rw [heq, clock_quiet fun x hx => (hq x hx).1]; exact hc
  | prepareShutdown p corr ps e =>
    show LInv d ((s.emit _).prepareShutdown p corr ps e)
    have hc := hclk e rfl
    have hfr := prepareAll_frame (s.emit (.recv (.prepareShutdown p corr ps e))) ([], [], []) ps
    have hinv := hi'.prepareAll ([], [], []) ps
    have h1 : LInv d ((s.emit (.recv (.prepareShutdown p corr ps e))).prepareAll ([], [], []) ps).1 :=
      hb.keeps (es := []) (by rw [hfr]; simp) (by simp) (by rw [hfr]) (svc_prepareAll _ _ _ hb.svc) (by rw [hfr]; exact fun _ => id)
    have h1c : clock ((s.emit (.recv (.prepareShutdown p corr ps e))).prepareAll ([], [], []) ps).1.tr = some e.now := by rw [hfr]; exact hc
    have h2 : LInv d ((s.emit (.recv (.prepareShutdown p corr ps e))).prepared ps e) := by
      unfold State.prepared
      simp only
      split
      · exact h1
      · refine (LInv.again (e := e) _ ⟨?_, ?_, ?_⟩).2.1
        · exact hinv.same ⟨rfl, rfl, rfl⟩
        · exact h1.keeps (es := []) (by simp) (by simp) rfl h1.svc (fun _ => id)
        · exact h1c
    rw [prepareShutdown_eq]
    simp only
    split <;> split
    · exact h2
    · exact h2.keeps rfl (by simp [LQuiet, noRecv, GoodBound]) rfl h2.svc (fun _ => id)
    · exact h2.keeps (es := []) (by simp) (by simp) rfl h2.svc (fun _ => id)
    · exact h2.keeps rfl (by simp [LQuiet, noRecv, GoodBound]) rfl h2.svc (fun _ => id)
  | alarm e =>
    show LInv d ((s.emit _).alarm e)
    rw [alarm_eq]
    have h1 : LInv d ((s.emit (.recv (.alarm e))).alarmPrep e) :=
      hb.keeps (es := []) (by simp [State.alarmPrep]) (by simp) rfl hb.svc (fun d hd => (List.dropWhile_sublist _).subset hd)
    have h2 : ∀ ds : List Entry, LInv d (ds.foldl State.expire ((s.emit (.recv (.alarm e))).alarmPrep e)) := by
      intro ds
      refine expire_ind (P := LInv d) ?_ ds h1
      intro t d ht
      have := expire_cases t d
      generalize t.expire d = t' at this
      cases this with
      | nothing => exact ht
      | lookup l _ => exact ht.keeps rfl (by simp [LQuiet, noRecv, GoodBound]) rfl ht.svc (fun _ => id)
      | noCaller => exact ht.keeps (es := []) (by simp) (by simp) rfl ht.svc (fun _ => id)
      | caller => exact ht.keeps rfl (by simp [LQuiet, noRecv, GoodBound]) rfl ht.svc (fun _ => id)
    split
    · exact (h2 _).keeps (es := []) (by simp [State.setTimer]) (by simp) rfl (h2 _).svc (fun _ => id)
    · exact h2 _
  | discovered corr e =>
    show LInv d ((s.emit _).discovered corr e)
    have hc := hclk e rfl
    rw [discovered_eq]
    split
    · exact hb
    · rename_i l hl
      split
      · refine (LInv.lookup (e := e) ⟨?_, ?_, ?_⟩).2.1
        · exact hi'.same ⟨rfl, rfl, rfl⟩
        · exact hb.keeps (es := []) (by simp) (by simp) rfl hb.svc (fun _ => id)
        · exact hc
      · split
        · exact hb
        · exact hb.keeps rfl (by simp [LQuiet, noRecv, GoodBound]) rfl hb.svc (fun _ => id)
  | disassociate t => exact hb.keeps (es := []) (by simp [State.step, State.handle]) (by simp) rfl hb.svc (fun _ => id)
  | undelivered ipc =>
    show LInv d (match (s.emit (.recv (.undelivered ipc))).seqOf ipc with | some i => (s.emit (.recv (.undelivered ipc))).modifySeq i SeqI.free | none => s.emit (.recv (.undelivered ipc)))
    cases hf : (s.emit (.recv (.undelivered ipc))).seqOf ipc with
    | none => exact hb
    | some i => exact hb.keeps (es := []) (by simp [State.modifySeq]) (by simp) rfl hb.svc (fun _ => id)

theorem LInv.run {d : Int} (h0 : 0 < d) (c : Config) (hc : c.timeout = some d) (is : List In) (hw : ∀ m ∈ is, m.within d) (hf : AllGood Forward ((State.init c).run is).tr) :
    LInv d ((State.init c).run is) := by
  induction is using snocInd with
  | nil => exact ⟨hc, fun v hv => (by cases hv), fun v hv => (by cases hv), AllGood.nil⟩
  | snoc is m ih =>
    rw [run_snoc] at hf ⊢
    have hi : Inv ((State.init c).run is) := Inv.run (Inv.init c) is
    obtain ⟨es, he⟩ := step_tr ((State.init c).run is) m hi
    rw [he] at hf
    refine LInv.step h0 hi (ih (fun m hm => hw m (List.mem_append_left _ hm)) fun a e h => hf a e h.mono) m (hw m (List.mem_append_right _ List.mem_cons_self)) ?_
    exact hf _ _ ⟨es, rfl⟩

end Casual.Service
