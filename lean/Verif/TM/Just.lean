import Verif.TM.Frame
import Verif.TM.Spec
import Verif.Code.Props
import Verif.Util
/-!
# Invariant behind the trace claims
-/
namespace Casual.TM
open Casual.Code Casual.FanOut

/-! ## monotonicity -/

theorem Recv.mono {tr l : List Obs} {k reqs recv} (h : Recv tr k reqs recv) : Recv (tr ++ l) k reqs recv := by
  refine ⟨fun m hm => ?_, h.2.1, fun q hq => ?_⟩
  · obtain ⟨a, b, c⟩ := h.1 m hm
    exact ⟨List.mem_append_left _ a, b, c⟩
  · rcases h.2.2 q hq with h | h
    · exact .inl h
    · exact .inr (List.mem_append_left _ h)

theorem Unanimous.mono {tr l : List Obs} {rt o d q r} (h : Unanimous tr rt o d q r) :
    Unanimous (tr ++ l) rt o d q r :=
  ⟨List.mem_append_left _ h.1, h.2.1.mono, h.2.2⟩

theorem LoggedPersisted.mono {tr l : List Obs} {g} (h : LoggedPersisted tr g) : LoggedPersisted (tr ++ l) g := by
  obtain ⟨rows, p1, p2, p3, rfl, hc⟩ := h
  exact ⟨rows, p1, p2, p3 ++ l, by simp, hc⟩

theorem DecidedHere.mono {tr l : List Obs} {r} (h : DecidedHere tr r) : DecidedHere (tr ++ l) r := by
  obtain ⟨a, b, c, d, e, h, h', rows, h''⟩ := h
  exact ⟨a, b, c, d, e, h.mono, h', rows, List.mem_append_left _ h''⟩

theorem DecidedUpstream.mono {tr l : List Obs} {r} (h : DecidedUpstream tr r) : DecidedUpstream (tr ++ l) r := by
  obtain ⟨p1, p2, p, c, t, rm, op, rfl, h⟩ := h
  exact ⟨p1, p2 ++ l, p, c, t, rm, op, by simp, h⟩

theorem VoteOk.mono {tr l : List Obs} {p a} (h : VoteOk tr p a) : VoteOk (tr ++ l) p a := by
  intro h1 h2
  obtain ⟨o, d, q, r, h3, h4⟩ := h h1 h2
  exact ⟨o, d, q, r, h3.mono, h4⟩

/-- not the final answer to a commit request -/
def NotDone : Obs → Prop
  | .answer _ a => a.rtype = .commit → a.stage ≠ some .commit
  | _ => True

theorem Claim.mono {tr l : List Obs} {o : Obs} (hn : NotDone o) (h : Claim tr o) : Claim (tr ++ l) o := by
  cases o with
  | issued r =>
    intro hk
    have := h hk
    split at this
    · rename_i hop
      rw [if_pos hop]
      obtain ⟨p, c, t, i, h1, h2⟩ := this
      exact ⟨p, c, t, i, List.mem_append_left _ h1, h2⟩
    · rename_i hop
      rw [if_neg hop]
      exact this.imp DecidedHere.mono DecidedUpstream.mono
  | answer to a =>
    obtain ⟨h1, h2, h3, h4, h5⟩ := h
    refine ⟨h1.mono, ?_, ?_, ?_, fun hp => (h5 hp).mono⟩
    · intro a1 a2 a3
      exact absurd a3 (hn a1)
    · intro a1 a2
      obtain ⟨o, d, q, r, x1, x2, x3, x4, x5, x6⟩ := h3 a1 a2
      exact ⟨o, d, q, r, x1, x2, x3, List.mem_append_left _ x4, x5.mono, x6⟩
    · intro a1 a2
      obtain ⟨o, d, q, r, x1, x2, x3, x4, x5, x6⟩ := h4 a1 a2
      exact ⟨o, d, q, r, x1, x2, x3, List.mem_append_left _ x4, x5.mono, x6⟩
  | fanout kind rt origin dest reqs =>
    refine ⟨h.1, h.2.1, fun hc => ?_⟩
    obtain ⟨p, r, h1, h2, h3⟩ := h.2.2 hc
    exact ⟨p, r, List.mem_append_left _ h1, h2.mono, h3⟩
  | logged => exact h
  | _ => trivial

theorem Always.snoc {Q : List Obs → Obs → Prop} {tr : List Obs} {o : Obs} (h : Always Q tr) (ho : Q tr o) :
    Always Q (tr ++ [o]) := by
  intro pre o' post he
  rcases List.eq_nil_or_concat post with rfl | ⟨post', x, rfl⟩
  · have := List.append_inj' he rfl
    obtain ⟨rfl, h2⟩ := this
    simp at h2; subst h2; exact ho
  · rw [List.concat_eq_append, ← List.cons_append, ← List.append_assoc] at he
    have := List.append_inj' he rfl
    exact h pre o' post' this.1

theorem Always.append {tr l : List Obs} (h : Always Claim tr) (hl : ∀ o ∈ l, Claim tr o)
    (hn : ∀ o ∈ l.tail, NotDone o := by simp [NotDone]) :
    Always Claim (tr ++ l) := by
  have key : ∀ l : List Obs, (∀ o ∈ l, Claim tr o ∧ NotDone o) → ∀ x, Claim tr x →
      Always Claim (tr ++ [x] ++ l) := by
    intro l hl x hx
    induction l using snocInd with
    | nil => rw [List.append_nil]; exact h.snoc hx
    | snoc l a ih =>
      rw [← List.append_assoc]
      refine (ih (fun o ho => hl o (by simp [ho]))).snoc ?_
      rw [List.append_assoc]
      exact Claim.mono (hl a (by simp)).2 (hl a (by simp)).1
  cases l with
  | nil => simpa using h
  | cons x l =>
    have := key l (fun o ho => ⟨hl o (by simp [ho]), hn o ho⟩) x (hl x (by simp))
    simpa using this

theorem Always.prefix {Q : List Obs → Obs → Prop} {tr l : List Obs} (h : Always Q (tr ++ l)) : Always Q tr := by
  intro pre o post he
  exact h pre o (post ++ l) (by rw [he]; simp)

/-! ## the invariant -/

/-- an open entry and the fan-out it stands for -/
def EOk {K : Type} (kind : Kind) (p : K → RType × Trid × Dest) (tr : List Obs) (e : Entry Rep Int K) : Prop :=
  ∃ reqs, Obs.fanout kind (p e.callback).1 (p e.callback).2.1 (p e.callback).2.2 reqs ∈ tr ∧
    e.pending.map (fun x => (x.corr, x.id)) = toPending reqs ∧
    (∀ m ∈ e.received, Obs.got m ∈ tr ∧ m.kind = kind ∧ m.corr ∈ e.corrs) ∧
    (∀ x ∈ e.pending, x.state = .received → ∃ m ∈ e.received, m.corr = x.corr) ∧
    (∀ x ∈ e.pending, x.state = .failed → Obs.failed x.id ∈ tr)

/-- a called callback -/
def FOk {K : Type} (kind : Kind) (p : K → RType × Trid × Dest) (tr : List Obs) (f : Fired Rep Int K) : Prop :=
  ∃ reqs, Obs.fanout kind (p f.callback).1 (p f.callback).2.1 (p f.callback).2.2 reqs ∈ tr ∧
    f.outcome.map (fun x => (x.corr, x.id)) = toPending reqs ∧
    Recv tr kind reqs f.received ∧
    (f.outcome.any (fun x => x.state = .failed) = false → ∀ q ∈ reqs, ∃ m ∈ f.received, m.corr = q.corr)

def projP (k : KPrepare) : RType × Trid × Dest := (k.rtype, k.origin, k.dest)
def projF (k : KFinal) : RType × Trid × Dest := (k.rtype, k.origin, k.dest)

/-- a rollback that is the consequence of a failed prepare carries the failure -/
def RolOk (k : KFinal) : Prop :=
  k.rtype ≠ .resPrepare ∧ (k.rtype = .resCommit → k.code ≠ .ok ∧ k.code ≠ .read_only)
def ComOk (k : KFinal) : Prop := k.rtype = .commit ∨ k.rtype = .resCommit
def PrepOk (k : KPrepare) : Prop := k.rtype = .commit ∨ k.rtype = .resCommit ∨ k.rtype = .resPrepare

def PostOk (tr : List Obs) (g : Nat) : Prop :=
  ∃ origin dest reqs recv, Obs.fanout .prepare .resPrepare origin dest reqs ∈ tr ∧
    origin.xid.g = g ∧ Recv tr .prepare reqs recv

/-- `X`: global ids that are exempt from the second part -/
structure TOk (X : Nat → Prop) (tr : List Obs) (t : Tx) : Prop where
  branches : ∀ b ∈ t.branches, b.trid.xid.g = t.g
  post : t.stage = .post_prepare → ¬ X t.g → PostOk tr t.g

/-- a queued answer -/
def RepOk (tr : List Obs) (to : Proc) (a : Answer) : Prop :=
  VoteOk tr to a ∧ Prepared a ∧
    ∃ rows p1 p2, tr = p1 ++ Obs.logged a.g rows :: p2 ∧ Obs.ev .crash ∉ p2

structure JX (X : Nat → Prop) (s : State) : Prop where
  claims : Always Claim s.tr
  prepL : Lite s.prep
  comL : Lite s.com
  rolL : Lite s.rol
  prepO : Once (·.corr) s.prep
  comO : Once (·.corr) s.com
  rolO : Once (·.corr) s.rol
  prepE : ∀ e ∈ s.prep.entries, EOk .prepare projP s.tr e ∧ PrepOk e.callback
  comE : ∀ e ∈ s.com.entries, EOk .commit projF s.tr e ∧ ComOk e.callback
  rolE : ∀ e ∈ s.rol.entries, EOk .rollback projF s.tr e ∧ RolOk e.callback
  txs : ∀ t ∈ s.txs, TOk X s.tr t
  replies : ∀ x ∈ s.replies, RepOk s.tr x.1 x.2

abbrev J := JX (fun _ => False)

variable {X : Nat → Prop}
set_option linter.unusedSectionVars false

theorem EOk.mono {K : Type} {kind : Kind} {p : K → RType × Trid × Dest} {tr l : List Obs} {e : Entry Rep Int K}
    (h : EOk kind p tr e) : EOk kind p (tr ++ l) e := by
  obtain ⟨reqs, h1, h2, h3, h4, h5⟩ := h
  refine ⟨reqs, List.mem_append_left _ h1, h2, fun m hm => ?_, h4, fun x hx hs => List.mem_append_left _ (h5 x hx hs)⟩
  obtain ⟨a, b⟩ := h3 m hm
  exact ⟨List.mem_append_left _ a, b⟩

theorem FOk.mono {K : Type} {kind : Kind} {p : K → RType × Trid × Dest} {tr l : List Obs} {f : Fired Rep Int K}
    (h : FOk kind p tr f) : FOk kind p (tr ++ l) f := by
  obtain ⟨reqs, h1, h2, h3, h4⟩ := h
  exact ⟨reqs, List.mem_append_left _ h1, h2, h3.mono, h4⟩

theorem PostOk.mono {tr l : List Obs} {g} (h : PostOk tr g) : PostOk (tr ++ l) g := by
  obtain ⟨a, b, d, e, h3, h4, h5⟩ := h
  exact ⟨a, b, d, e, List.mem_append_left _ h3, h4, h5.mono⟩

theorem TOk.mono {tr l : List Obs} {t} (h : TOk X tr t) : TOk X (tr ++ l) t :=
  ⟨h.branches, fun hp hx => (h.post hp hx).mono⟩

theorem RepOk.mono {tr l : List Obs} {p a} (h : RepOk tr p a) (hl : Obs.ev .crash ∉ l) : RepOk (tr ++ l) p a := by
  obtain ⟨h1, h2, rows, p1, p2, rfl, h3⟩ := h
  refine ⟨h1.mono, h2, rows, p1, p2 ++ l, by simp, ?_⟩
  simp [h3, hl]

/-- change of the trace and of parts the invariant does not speak about -/
theorem JX.of {s s' : State} {l : List Obs} (h : JX X s) (htr : s'.tr = s.tr ++ l)
    (hl : ∀ o ∈ l, Claim s.tr o) (hc : Obs.ev .crash ∉ l)
    (hp : s'.prep = s.prep) (hcm : s'.com = s.com) (hr : s'.rol = s.rol)
    (ht : ∀ t ∈ s'.txs, TOk X s'.tr t) (hrep : s'.replies = s.replies)
    (hn : ∀ o ∈ l.tail, NotDone o := by simp [NotDone]) : JX X s' := by
  refine ⟨by rw [htr]; exact h.claims.append hl hn, by rw [hp]; exact h.prepL, by rw [hcm]; exact h.comL,
    by rw [hr]; exact h.rolL, by rw [hp]; exact h.prepO, by rw [hcm]; exact h.comO, by rw [hr]; exact h.rolO,
    ?_, ?_, ?_, ht, ?_⟩
  · rw [hp, htr]; exact fun e he => ⟨(h.prepE e he).1.mono, (h.prepE e he).2⟩
  · rw [hcm, htr]; exact fun e he => ⟨(h.comE e he).1.mono, (h.comE e he).2⟩
  · rw [hr, htr]; exact fun e he => ⟨(h.rolE e he).1.mono, (h.rolE e he).2⟩
  · rw [hrep, htr]; exact fun x hx => (h.replies x hx).mono hc

/-- as `J.of`, transactions unchanged -/
theorem JX.of' {s s' : State} {l : List Obs} (h : JX X s) (htr : s'.tr = s.tr ++ l)
    (hl : ∀ o ∈ l, Claim s.tr o) (hc : Obs.ev .crash ∉ l)
    (hp : s'.prep = s.prep) (hcm : s'.com = s.com) (hr : s'.rol = s.rol)
    (ht : s'.txs = s.txs) (hrep : s'.replies = s.replies)
    (hn : ∀ o ∈ l.tail, NotDone o := by simp [NotDone]) : JX X s' :=
  h.of htr hl hc hp hcm hr (by rw [ht, htr]; exact fun t h' => (h.txs t h').mono) hrep hn

/-- `s'` satisfies the invariant and continues the trace of `s` -/
def Ok (X : Nat → Prop) (s s' : State) : Prop := JX X s' ∧ ∃ l, s'.tr = s.tr ++ l

theorem Ok.trans {a b c : State} (h : Ok X a b) (k : Ok X b c) : Ok X a c := by
  obtain ⟨-, l, h⟩ := h
  obtain ⟨k, l', h'⟩ := k
  exact ⟨k, l ++ l', by rw [h', h]; simp⟩

theorem Ok.refl {s : State} (h : JX X s) : Ok X s s := ⟨h, [], by simp⟩

theorem JX.emit {s : State} (h : JX X s) {o : Obs} (ho : Claim s.tr o) (hc : o ≠ .ev .crash) : Ok X s (s.emit o) :=
  ⟨h.of' (l := [o]) rfl (by simpa using ho) (by simpa using hc.symm) rfl rfl rfl rfl rfl, [o], rfl⟩

theorem JX.halt {s : State} (h : JX X s) : Ok X s s.halt :=
  ⟨⟨h.claims.append (by simp [Claim]), lite_empty, lite_empty, lite_empty, once_empty _, once_empty _,
    once_empty _, by simp [State.halt, Out.empty], by simp [State.halt, Out.empty],
    by simp [State.halt, Out.empty], by simp [State.halt], by simp [State.halt]⟩, [.halted], rfl⟩

/-- change of transactions only -/
theorem JX.txsOnly {s : State} (h : JX X s) (f : List Tx) (hf : ∀ t ∈ f, TOk X s.tr t)  : JX X { s with txs := f } :=
  h.of (l := []) (by simp) (by simp) (by simp) rfl rfl rfl (by simpa using hf) rfl

theorem JX.modify {s : State} (h : JX X s) (g : Nat) (f : Tx → Tx) (hf : ∀ t ∈ s.txs, t.g = g → TOk X s.tr (f t)) :
    JX X (s.modify g f) := by
  apply h.txsOnly
  intro t ht
  obtain ⟨x, hx, rfl⟩ := List.mem_map.mp ht
  split
  · exact hf x hx (by assumption)
  · exact h.txs x hx

theorem Ok.modify {s : State} (h : JX X s) (g : Nat) (f : Tx → Tx) (hf : ∀ t ∈ s.txs, t.g = g → TOk X s.tr (f t)) :
    Ok X s (s.modify g f) := ⟨h.modify g f hf, [], by simp [State.modify]⟩

theorem JX.remove {s : State} (h : JX X s) (g : Nat) : Ok X s (s.remove g) := by
  have key : ∀ l : List Tx, (∀ t ∈ l.filter (fun t => decide (t.g ≠ g)), t ∈ l) :=
    fun l t ht => (List.mem_filter.mp ht).1
  unfold State.remove
  dsimp only
  split
  · refine ⟨h.of (l := [.removed g, .disassociate (some g)]) rfl (by simp [Claim]) (by simp) rfl rfl rfl ?_ rfl, _, rfl⟩
    intro t ht
    exact (h.txs t (key _ t ht)).mono
  · exact ⟨h.of' (l := [.removed g]) rfl (by simp [Claim]) (by simp) rfl rfl rfl rfl rfl, _, rfl⟩

theorem JX.removeByRange {s : State} (h : JX X s) (g : Nat) : Ok X s (s.removeByRange g) := by
  have key : ∀ l : List Tx, (∀ t ∈ l.filter (fun t => decide (t.g ≠ g)), t ∈ l) :=
    fun l t ht => (List.mem_filter.mp ht).1
  unfold State.removeByRange
  dsimp only
  split
  · refine ⟨h.of (l := [.removed g, .disassociate (nextAfter g s.txs)]) rfl (by simp [Claim]) (by simp) rfl rfl rfl ?_ rfl, _, rfl⟩
    intro t ht
    exact (h.txs t (key _ t ht)).mono
  · exact ⟨h.of' (l := [.removed g]) rfl (by simp [Claim]) (by simp) rfl rfl rfl rfl rfl, _, rfl⟩

/-! ### transactions and branches -/

theorem modBranch_trid (x : Xid) (f : Branch → Branch) (hf : ∀ b, (f b).trid = b.trid) (bs : List Branch) :
    (modBranch x f bs).map (·.trid) = bs.map (·.trid) := by
  induction bs with
  | nil => rfl
  | cons b bs ih =>
    unfold modBranch
    split
    · simp [hf]
    · simp [ih]

theorem tridOk_of_map {bs bs' : List Branch} {g : Nat} (hm : bs'.map (·.trid) = bs.map (·.trid))
    (h : ∀ b ∈ bs, b.trid.xid.g = g) : ∀ b ∈ bs', b.trid.xid.g = g := by
  intro b hb
  have : b.trid ∈ bs'.map (·.trid) := List.mem_map_of_mem hb
  rw [hm, List.mem_map] at this
  obtain ⟨x, hx, he⟩ := this
  rw [← he]; exact h x hx

theorem involveBranch_g {trid : Trid} {rms : List Int} {bs : List Branch} {g : Nat} (hg : trid.xid.g = g)
    (h : ∀ b ∈ bs, b.trid.xid.g = g) : ∀ b ∈ involveBranch trid rms bs, b.trid.xid.g = g := by
  unfold involveBranch
  split
  · exact tridOk_of_map (modBranch_trid _ _ (by intro b; rfl) _) h
  · intro b hb
    rcases List.mem_append.mp hb with hb | hb
    · exact h b hb
    · simp at hb; subst hb; exact hg

theorem TOk.purge {tr : List Obs} {t : Tx} (h : TOk X tr t) : TOk X tr t.purge :=
  ⟨fun b hb => h.branches b (List.mem_filter.mp hb).1, h.post⟩

theorem TOk.purgeReplies {tr : List Obs} {t : Tx} (h : TOk X tr t) (rs : List Rep) : TOk X tr (t.purgeReplies rs) := by
  unfold Tx.purgeReplies
  apply TOk.purge
  refine ⟨?_, h.post⟩
  dsimp only
  have : ∀ (rs : List Rep) (bs : List Branch),
      (rs.foldl (fun bs r => modBranch r.trid.xid (fun b => { b with resources := b.resources.filter (fun x => decide (x ≠ r.rm)) }) bs) bs).map (·.trid)
        = bs.map (·.trid) := by
    intro rs
    induction rs with
    | nil => intro bs; rfl
    | cons r rs ih =>
      intro bs
      rw [List.foldl_cons, ih]
      exact modBranch_trid _ _ (by intro b; rfl) _
  exact tridOk_of_map (this rs t.branches) h.branches

theorem JX.ensure {s : State} (h : JX X s) (trid : Trid) : Ok X s (s.ensure trid) := by
  unfold State.ensure
  split
  · exact Ok.refl h
  · refine ⟨h.txsOnly _ ?_, [], by simp⟩
    intro t ht
    rcases List.mem_append.mp ht with ht | ht
    · exact h.txs t ht
    · simp at ht; subst ht
      exact ⟨by simp [Tx.new], by simp [Tx.new]⟩

theorem JX.involve {s : State} (h : JX X s) (trid : Trid) (rms : List Int) : Ok X s (s.involve trid rms) := by
  have h1 := h.ensure trid
  refine h1.trans (Ok.modify h1.1 _ _ ?_)
  intro t ht hg
  have := h1.1.txs t ht
  exact ⟨involveBranch_g hg.symm this.branches, this.post⟩

theorem JX.involvePurge {s : State} (h : JX X s) (trid : Trid) (rms : List Int) : Ok X s (s.involvePurge trid rms) := by
  have h1 := h.ensure trid
  refine h1.trans (Ok.modify h1.1 _ _ ?_)
  intro t ht hg
  have := h1.1.txs t ht
  exact TOk.purge ⟨involveBranch_g hg.symm this.branches, this.post⟩

theorem find_mem {s : State} {g : Nat} {t : Tx} (h : s.find g = some t) : t ∈ s.txs ∧ t.g = g :=
  ⟨List.mem_of_find?_eq_some h, by simpa using List.find?_some h⟩

theorem targets_g {tr : List Obs} {t : Tx} (h : TOk X tr t) : ∀ x ∈ t.targets, x.1.xid.g = t.g := by
  intro x hx
  unfold Tx.targets at hx
  obtain ⟨b, hb, hx⟩ := List.mem_flatMap.mp hx
  obtain ⟨r, -, rfl⟩ := List.mem_map.mp hx
  exact h.branches b hb

/-! ### fan-outs -/

theorem map_corr_id (e : List (Pending Int)) (reqs : List Req)
    (h : e.map (fun x => (x.corr, x.id)) = toPending reqs) :
    e.map (·.corr) = reqs.map (·.corr) := by
  have := congrArg (List.map Prod.fst) h
  simpa [toPending, Function.comp_def] using this

theorem FOk.of_entry {K : Type} {kind : Kind} {p : K → RType × Trid × Dest} {tr : List Obs} {e : Entry Rep Int K}
    (h : EOk kind p tr e) (hd : e.isDone = true) (hn : (e.received.map (·.corr)).Nodup) : FOk kind p tr e.fire := by
  obtain ⟨reqs, h1, h2, h3, h4, h5⟩ := h
  have hcs := map_corr_id _ _ h2
  have hx : ∀ q ∈ reqs, ∃ x ∈ e.pending, x.corr = q.corr ∧ x.id = q.rm := by
    intro q hq
    have : (q.corr, q.rm) ∈ toPending reqs := by
      unfold toPending; exact List.mem_map_of_mem (f := fun r => (r.corr, r.rm)) hq
    rw [← h2, List.mem_map] at this
    obtain ⟨x, hx, he⟩ := this
    simp at he
    exact ⟨x, hx, he⟩
  have hdone : ∀ x ∈ e.pending, x.state ≠ .pending := by
    intro x hx hs
    unfold Entry.isDone at hd
    have : e.pending.any (fun p => decide (p.state = .pending)) = true :=
      List.any_eq_true.mpr ⟨x, hx, by simp [hs]⟩
    simp [this] at hd
  refine ⟨reqs, h1, h2, ⟨?_, hn, ?_⟩, ?_⟩
  · intro m hm
    obtain ⟨a, b, c⟩ := h3 m hm
    refine ⟨a, b, ?_⟩
    unfold Entry.corrs at c
    rw [hcs, List.mem_map] at c
    exact c
  · intro q hq
    obtain ⟨x, hx, hc, hi⟩ := hx q hq
    have := hdone x hx
    cases hs : x.state with
    | pending => exact absurd hs this
    | received => left; rw [← hc]; exact h4 x hx hs
    | failed => right; rw [← hi]; exact h5 x hx hs
  · intro hnf q hq
    obtain ⟨x, hx, hc, hi⟩ := hx q hq
    have hp := hdone x hx
    cases hs : x.state with
    | pending => exact absurd hs hp
    | received => rw [← hc]; exact h4 x hx hs
    | failed =>
      exfalso
      have : e.pending.any (fun x => decide (x.state = .failed)) = true :=
        List.any_eq_true.mpr ⟨x, hx, by simp [hs]⟩
      unfold Entry.fire at hnf
      rw [this] at hnf
      exact absurd hnf (by simp)

theorem EOk.coordinate {K : Type} {kind : Kind} {p : K → RType × Trid × Dest} {tr : List Obs} {e : Entry Rep Int K}
    (h : EOk kind p tr e) {m : Rep} (hm : Obs.got m ∈ tr) (hk : m.kind = kind) (hc : m.corr ∈ e.corrs) :
    EOk kind p tr (e.coordinate (·.corr) m) := by
  obtain ⟨reqs, h1, h2, h3, h4, h5⟩ := h
  have hmap : ∀ ps : List (Pending Int), (markReceived m.corr ps).map (fun x => (x.corr, x.id)) = ps.map (fun x => (x.corr, x.id)) := by
    intro ps
    induction ps with
    | nil => rfl
    | cons a as ih =>
      unfold markReceived
      split
      · rfl
      · simp [ih]
  refine ⟨reqs, h1, by rw [← h2]; exact hmap _, ?_, ?_, ?_⟩
  · intro x hx
    rw [coordinate_corrs]
    rcases List.mem_append.mp hx with hx | hx
    · exact h3 x hx
    · simp at hx; subst hx; exact ⟨hm, hk, hc⟩
  · intro x hx hs
    rcases markReceived_state _ _ _ hx with hx | ⟨hx, -⟩
    · obtain ⟨m', hm', he⟩ := h4 x hx hs
      exact ⟨m', List.mem_append_left _ hm', he⟩
    · exact ⟨m, by simp [Entry.coordinate], hx.symm⟩
  · intro x hx hs
    rcases markReceived_state _ _ _ hx with hx | ⟨-, hx⟩
    · exact h5 x hx hs
    · rw [hs] at hx; cases hx

theorem EOk.failed {K : Type} {kind : Kind} {p : K → RType × Trid × Dest} {tr : List Obs} {e : Entry Rep Int K}
    (h : EOk kind p tr e) {id : Int} (hm : Obs.failed id ∈ tr) : EOk kind p tr (e.failed id).1 := by
  obtain ⟨reqs, h1, h2, h3, h4, h5⟩ := h
  refine ⟨reqs, h1, ?_, ?_, ?_, ?_⟩
  · rw [← h2]
    simp only [Entry.failed, List.map_map]
    apply List.map_congr_left
    intro x _
    simp only [Function.comp]
    split <;> rfl
  · intro m hm; rw [failed_corrs]; exact h3 m hm
  · intro x hx hs
    obtain ⟨y, hy, rfl⟩ := List.mem_map.mp hx
    split at hs
    · cases hs
    · rename_i hi; rw [if_neg hi]; exact h4 y hy hs
  · intro x hx hs
    obtain ⟨y, hy, rfl⟩ := List.mem_map.mp hx
    split
    · rename_i hi; subst hi; exact hm
    · rename_i hi; rw [if_neg hi] at hs; exact h5 y hy hs

theorem newEntry_ok {K : Type} {kind : Kind} {p : K → RType × Trid × Dest} {tr : List Obs} {n : Nat} {reqs : List Req} {k : K}
    (h : Obs.fanout kind (p k).1 (p k).2.1 (p k).2.2 reqs ∈ tr) :
    EOk kind p tr (newEntry n (toPending reqs) k) := by
  refine ⟨reqs, h, ?_, by simp [newEntry], ?_, ?_⟩
  · simp [newEntry, toPending, Function.comp_def]
  · intro x hx hs
    simp [newEntry] at hx
    obtain ⟨_, _, _, rfl⟩ := hx
    cases hs
  · intro x hx hs
    simp [newEntry] at hx
    obtain ⟨_, _, _, rfl⟩ := hx
    cases hs

/-- generic registration -/
theorem register_ok {K : Type} {kind : Kind} {p : K → RType × Trid × Dest} {tr : List Obs} {o : Out Rep Int K}
    {reqs : List Req} {k : K} (hE : ∀ e ∈ o.entries, EOk kind p tr e)
    (h : Obs.fanout kind (p k).1 (p k).2.1 (p k).2.2 reqs ∈ tr) :
    (∀ e ∈ (o.register (toPending reqs) k).1.entries, EOk kind p tr e ∧ (e ∈ o.entries ∨ e.callback = k)) ∧
    (∀ f ∈ (o.register (toPending reqs) k).2, FOk kind p tr f ∧ f.callback = k) := by
  rcases register_entries o (toPending reqs) k with ⟨hn, he⟩ | ⟨hn, h1, h2⟩
  · rw [he]
    refine ⟨fun e h => ⟨hE e h, .inl h⟩, ?_⟩
    intro f hf
    simp at hf; subst hf
    exact ⟨FOk.of_entry (newEntry_ok h) (by rw [newEntry_done]; simp [hn]) (by simp [newEntry]), rfl⟩
  · rw [h1, h2]
    refine ⟨?_, by simp⟩
    intro e he
    rcases List.mem_append.mp he with he | he
    · exact ⟨hE e he, .inl he⟩
    · simp at he; subst he
      exact ⟨newEntry_ok h, .inr rfl⟩

theorem reply_ok {K : Type} {kind : Kind} {p : K → RType × Trid × Dest} {tr : List Obs} {o : Out Rep Int K}
    (hL : Lite o) (hO : Once (·.corr) o) (hE : ∀ e ∈ o.entries, EOk kind p tr e) {m : Rep}
    (hm : Obs.got m ∈ tr) (hk : m.kind = kind) :
    (∀ e ∈ (o.reply (·.corr) m).1.entries, EOk kind p tr e ∧ ∃ e0 ∈ o.entries, e.callback = e0.callback) ∧
    (∀ f ∈ (o.reply (·.corr) m).2, FOk kind p tr f ∧ ∃ e0 ∈ o.entries, f.callback = e0.callback) := by
  rcases reply_cases (·.corr) o hL m with ⟨h1, h2⟩ | ⟨pre, e, post, hs, hc, hin, -, ⟨hd, h1, h2⟩ | ⟨-, h1, h2⟩⟩
  · rw [h1, h2]; exact ⟨fun e h => ⟨hE e h, e, h, rfl⟩, by simp⟩
  · have hmem : e ∈ o.entries := by rw [hs]; simp
    rw [h1, h2]
    refine ⟨?_, ?_⟩
    · intro x hx
      have : x ∈ o.entries := by rw [hs]; simp at hx ⊢; grind
      exact ⟨hE x this, x, this, rfl⟩
    · intro f hf
      simp at hf; subst hf
      refine ⟨FOk.of_entry ((hE e hmem).coordinate hm hk hc) hd ?_, e, hmem, rfl⟩
      simp only [Entry.coordinate, List.map_append, List.nodup_append]
      refine ⟨hO.nodup e hmem, by simp, ?_⟩
      intro a ha b hb
      simp at hb ha
      obtain ⟨m', hm', rfl⟩ := ha
      subst hb
      intro hEq
      exact hO.gone e hmem m' hm' (by rw [hEq]; exact hin)
  · have hmem : e ∈ o.entries := by rw [hs]; simp
    rw [h1, h2]
    refine ⟨?_, by simp⟩
    intro x hx
    rcases List.mem_append.mp hx with hx | hx
    · have : x ∈ o.entries := by rw [hs]; simp [hx]
      exact ⟨hE x this, x, this, rfl⟩
    · rcases List.mem_cons.mp hx with rfl | hx
      · exact ⟨(hE e hmem).coordinate hm hk hc, e, hmem, rfl⟩
      · have : x ∈ o.entries := by rw [hs]; simp [hx]
        exact ⟨hE x this, x, this, rfl⟩

theorem fail_ok {K : Type} {kind : Kind} {p : K → RType × Trid × Dest} {tr : List Obs} {o : Out Rep Int K}
    (hO : Once (·.corr) o) (hE : ∀ e ∈ o.entries, EOk kind p tr e) {id : Int} (hm : Obs.failed id ∈ tr) :
    (∀ e ∈ (o.fail id).1.entries, EOk kind p tr e ∧ ∃ e0 ∈ o.entries, e.callback = e0.callback) ∧
    (∀ f ∈ (o.fail id).2, FOk kind p tr f ∧ ∃ e0 ∈ o.entries, f.callback = e0.callback) := by
  have h := (fail_rel o id).1.mem
  refine ⟨?_, ?_⟩
  · intro e he
    obtain ⟨x, hx, rfl⟩ := h.1 e he
    exact ⟨(hE x hx).failed hm, x, hx, rfl⟩
  · intro f hf
    obtain ⟨x, hx, hd, rfl⟩ := h.2 f hf
    exact ⟨FOk.of_entry ((hE x hx).failed hm) hd (hO.nodup x hx), x, hx, rfl⟩

end Casual.TM
