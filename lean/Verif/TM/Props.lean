import Verif.TM.Cover
import Verif.TM.Wire
import Verif.TM.Count
/-!
# Properties of the transaction manager

`trace self es`: everything observable in the run of a manager (with process `self`) that takes up the events `es`
(requests, replies, process exits, crashes, ... in any order and number).
-/
namespace Casual.TM
open Casual.Code Casual.FanOut

def trace (self : Proc) (es : List Event) : List Obs := (run (init self) es).tr

/-! ### assumptions on the environment -/

/-- A resource answers with the branch and resource id of the request it answers. -/
def HonestReplies (tr : List Obs) : Prop :=
  ∀ m, Obs.got m ∈ tr → ∀ kind rt o d reqs, Obs.fanout kind rt o d reqs ∈ tr → m.kind = kind →
    ∀ q ∈ reqs, q.corr = m.corr → m.trid = q.trid ∧ m.rm = q.rm

/-- An upstream coordinator that has asked us to prepare asks for commit only after our ok vote. -/
def HonestUpstream (tr : List Obs) : Prop :=
  ∀ p1 p2 p c trid rm op, tr = p1 ++ Obs.ev (.extCommit p c trid rm op) :: p2 →
    (∃ o d reqs, Obs.fanout .prepare .resPrepare o d reqs ∈ p1 ∧ o.xid.g = trid.xid.g) →
    ∃ to a, Obs.answer to a ∈ p1 ∧ a.rtype = .resPrepare ∧ a.status = .xa .ok ∧ a.g = trid.xid.g

theorem HonestReplies.prefix {a b : List Obs} (h : HonestReplies (a ++ b)) : HonestReplies a :=
  fun m hm kind rt o d reqs hf => h m (by simp [hm]) kind rt o d reqs (by simp [hf])

theorem HonestUpstream.prefix {a b : List Obs} (h : HonestUpstream (a ++ b)) : HonestUpstream a := by
  rintro p1 p2 p c t rm op rfl
  exact h p1 (p2 ++ b) p c t rm op (by simp)

theorem claims (self : Proc) (es : List Event) : Always Claim (trace self es) := (reach_J self es).claims

theorem Always.mem {Q : List Obs → Obs → Prop} {tr : List Obs} (h : Always Q tr) {o : Obs} (ho : o ∈ tr) :
    ∃ pre post, tr = pre ++ o :: post ∧ Q pre o := by
  obtain ⟨pre, post, rfl⟩ := List.append_of_mem ho
  exact ⟨pre, post, rfl, h pre o post rfl⟩

/-! ### a concrete run: two-phase commit of two resources -/

namespace Sample
def me : Proc := ⟨1, 1⟩
def app : Proc := ⟨5, 55⟩
def t9 : Trid := ⟨⟨9, 1⟩, 5⟩
def up : List Event := [.spawn 1 11, .ready 1 ⟨11, 111⟩, .spawn 2 12, .ready 2 ⟨12, 112⟩]
def twoPhase : List Event := up ++ [.commit app 7 t9 [1, 2],
  .reply ⟨.prepare, 1, t9, 1, .ok, 11⟩, .reply ⟨.prepare, 2, t9, 2, .ok, 12⟩, .idle,
  .reply ⟨.commit, 3, t9, 1, .ok, 11⟩, .reply ⟨.commit, 4, t9, 2, .ok, 12⟩]
/-- one votes read-only, the other fails -/
def mixed : List Event := up ++ [.commit app 7 t9 [1, 2],
  .reply ⟨.prepare, 1, t9, 1, .read_only, 11⟩, .reply ⟨.prepare, 2, t9, 2, .resource_error, 12⟩,
  .reply ⟨.rollback, 3, t9, 2, .ok, 12⟩]
/-- upstream asks to prepare and then to commit -/
def upstream : List Event := up ++ [.involved ⟨6, 66⟩ t9 [1, 2] false, .extPrepare app 7 t9 5,
  .reply ⟨.prepare, 1, t9, 1, .ok, 11⟩, .reply ⟨.prepare, 2, t9, 2, .ok, 12⟩, .idle, .extCommit app 8 t9 5 false,
  .reply ⟨.commit, 3, t9, 1, .ok, 11⟩, .reply ⟨.commit, 4, t9, 2, .ok, 12⟩]

/-- decision procedure for `HonestReplies`, for the samples -/
def honestB (tr : List Obs) : Bool :=
  tr.all (fun o => match o with
    | .got m => tr.all (fun f => match f with
      | .fanout kind _ _ _ reqs => m.kind ≠ kind || reqs.all (fun q => q.corr ≠ m.corr || (m.trid = q.trid && m.rm = q.rm))
      | _ => true)
    | _ => true)

theorem honest_of {tr : List Obs} (h : honestB tr = true) : HonestReplies tr := by
  intro m hm kind rt o d reqs hf hk q hq hc
  unfold honestB at h
  have h1 := List.all_eq_true.mp h _ hm
  dsimp only at h1
  have h2 := List.all_eq_true.mp h1 _ hf
  simp only [hk, ne_eq, not_true_eq_false, decide_false, Bool.false_or] at h2
  have h3 := List.all_eq_true.mp h2 q hq
  simpa [hc] using h3

theorem honestUp_of_none {tr : List Obs} (h : tr.all (fun o => match o with | .ev (.extCommit ..) => false | _ => true) = true) :
    HonestUpstream tr := by
  rintro p1 p2 p c t rm op rfl
  simp at h
end Sample
open Sample

/-! ## C03: no phase-two commit without unanimous prepare -/

/-- what the manager has seen before it issues a phase-two commit request: a prepare phase of that transaction, in
which everybody has been heard and voted ok or read-only -/
theorem commit_after_unanimous (self : Proc) (es : List Event) (hr : HonestReplies (trace self es))
    (hu : HonestUpstream (trace self es)) (pre post : List Obs) (r : Req)
    (h : trace self es = pre ++ Obs.issued r :: post) (hk : r.kind = .commit) (h1 : r.onePhase = false) :
    ∃ rt origin dest reqs recv, origin.xid.g = r.trid.xid.g ∧ Unanimous pre rt origin dest reqs recv := by
  have hc := claims self es pre _ post h hk
  rw [h1] at hc
  simp only [Bool.false_eq_true, if_false] at hc
  rw [h] at hr hu
  rcases hc with ⟨rt, o, d, reqs, recv, hU, ⟨m, hm, -, hmt, -⟩, -⟩ | ⟨p1, p2, p, c, t, rm, op, he, hg, o, d, reqs, recv, hf, ho, hrc⟩
  · refine ⟨rt, o, d, reqs, recv, ?_, hU⟩
    obtain ⟨hf, hrc, -⟩ := hU
    obtain ⟨hgot, hmk, q, hq, hqc⟩ := hrc.1 m hm
    have := (hr.prefix m hgot .prepare rt o d reqs hf hmk q hq hqc).1
    have hcl : Always Claim pre := by
      have := claims self es
      rw [h] at this
      exact this.prefix
    obtain ⟨a, b, _, hfan⟩ := hcl.mem hf
    rw [← hmt, this]
    exact (hfan.2.1 rfl q hq).symm
  · obtain ⟨to, a, ha, a1, a2, a3⟩ := hu.prefix p1 p2 p c t rm op he ⟨o, d, reqs, hf, by rw [ho, hg]⟩
    have hcl : Always Claim p1 := by
      have := claims self es
      rw [h, he, List.append_assoc] at this
      exact this.prefix
    obtain ⟨x, y, hxy, hA⟩ := hcl.mem ha
    obtain ⟨o', d', reqs', recv', hU, -, -, hg'⟩ := hA.1 a1 a2
    refine ⟨.resPrepare, o', d', reqs', recv', by rw [hg', a3, hg], ?_⟩
    rw [he, hxy, List.append_assoc]
    exact hU.mono

theorem count_unique {A : Type} {p : A → Bool} {l : List A} (h : l.countP p ≤ 1) {a b : A} (ha : a ∈ l) (hb : b ∈ l)
    (pa : p a = true) (pb : p b = true) : a = b := by
  induction l with
  | nil => cases ha
  | cons x l ih =>
    rw [List.countP_cons] at h
    have pos : ∀ y ∈ l, p y = true → 0 < l.countP p := fun y hy py => List.countP_pos_iff.mpr ⟨y, hy, py⟩
    rcases List.mem_cons.mp ha with rfl | ha' <;> rcases List.mem_cons.mp hb with rfl | hb'
    · rfl
    · have := pos b hb' pb; rw [if_pos pa] at h; omega
    · have := pos a ha' pa; rw [if_pos pb] at h; omega
    · exact ih (by omega) ha' hb'

/-- the claim itself: every resource that had been asked to prepare in that transaction has answered, and voted ok or
read-only. (`Fresh`: the transaction id has not been used for an earlier, finished, transaction.) -/
theorem commit_only_after_all_voted (self : Proc) (es : List Event) (hr : HonestReplies (trace self es))
    (hu : HonestUpstream (trace self es)) (pre post : List Obs) (r : Req)
    (h : trace self es = pre ++ Obs.issued r :: post) (hk : r.kind = .commit) (h1 : r.onePhase = false)
    (hf : Fresh r.trid.xid.g pre) :
    (∃ q, Obs.issued q ∈ pre ∧ q.kind = .prepare ∧ q.trid.xid.g = r.trid.xid.g ∨
      ∃ rt o d, Obs.fanout .prepare rt o d [] ∈ pre ∧ o.xid.g = r.trid.xid.g) ∧
    ∀ q, Obs.issued q ∈ pre → q.kind = .prepare → q.trid.xid.g = r.trid.xid.g →
      ∃ m, Obs.got m ∈ pre ∧ m.kind = .prepare ∧ m.trid = q.trid ∧ m.rm = q.rm ∧ Vote m.code := by
  obtain ⟨rt, o, d, reqs, recv, hg, hU⟩ := commit_after_unanimous self es hr hu pre post r h hk h1
  obtain ⟨dd, hseq, hdd⟩ := (reach_E self es).ord pre _ post h
  have hcl : Always Claim pre := by
    have := claims self es
    rw [h] at this
    exact this.prefix
  -- a fan-out's requests are issued and vice versa
  have toIss : ∀ q ∈ reqs, ∃ q', Obs.issued q' ∈ pre ∧ q'.core = q.core := by
    intro q hq
    have : q.core ∈ issuedSeq pre := by
      rw [hseq]
      refine List.mem_append_left _ (List.mem_flatMap.mpr ⟨_, hU.1, ?_⟩)
      exact List.mem_map_of_mem hq
    obtain ⟨q', hq', he⟩ := List.mem_map.mp this
    obtain ⟨ob, hob, hs⟩ := List.mem_filterMap.mp hq'
    cases ob <;> simp [issued?] at hs
    subst hs
    exact ⟨_, hob, he⟩
  obtain ⟨_, _, _, hfan⟩ := hcl.mem hU.1
  refine ⟨?_, ?_⟩
  · cases reqs with
    | nil => exact ⟨r, .inr ⟨rt, o, d, hU.1, hg⟩⟩
    | cons q rest =>
      obtain ⟨q', h2, h3⟩ := toIss q (by simp)
      simp only [Req.core, Prod.mk.injEq] at h3
      refine ⟨q', .inl ⟨h2, h3.1.trans (hfan.1 q (by simp)), ?_⟩⟩
      rw [h3.2.1, hfan.2.1 rfl q (by simp), hg]
  · intro q hq hqk hqg
    have : q.core ∈ issuedSeq pre :=
      List.mem_map.mpr ⟨q, List.mem_filterMap.mpr ⟨_, hq, rfl⟩, rfl⟩
    rw [hseq] at this
    rcases List.mem_append.mp this with hm | hm
    · obtain ⟨f, hfm, hx⟩ := List.mem_flatMap.mp hm
      cases f with
      | fanout k rt' o' d' reqs' =>
        obtain ⟨q', hq', he⟩ := List.mem_map.mp (show q.core ∈ reqs'.map Req.core from hx)
        simp only [Req.core, Prod.mk.injEq] at he
        obtain ⟨_, _, _, hfan'⟩ := hcl.mem hfm
        have hk' : k = .prepare := by rw [← hfan'.1 q' hq', he.1, hqk]
        subst hk'
        have hg' : o'.xid.g = r.trid.xid.g := by rw [← hfan'.2.1 rfl q' hq', he.2.1, hqg]
        have := count_unique (single_prepare self es r.trid.xid.g pre _ h hf.1 hf.2.1 hf.2.2) hfm hU.1
          (by simp [isPrepOf, hg']) (by simp [isPrepOf, hg])
        cases this
        obtain ⟨-, hrc, hgood⟩ := hU
        obtain ⟨m, hm, hmc⟩ := hgood.1 q' hq'
        obtain ⟨hgot, hmk, -⟩ := hrc.1 m hm
        rw [h] at hr
        obtain ⟨e1, e2⟩ := hr.prefix m hgot .prepare _ _ _ _ hfm hmk q' hq' hmc.symm
        exact ⟨m, hgot, hmk, by rw [e1, he.2.1], by rw [e2, he.2.2.1], hgood.2 m hm⟩
      | _ => cases hx
    · have h2 := hdd _ hm
      simp [Req.core, hqk, hk] at h2

/-- ... in particular of what is sent to a resource process -/
theorem wire_commit_only_after_all_voted (self : Proc) (es : List Event) (hr : HonestReplies (trace self es))
    (hu : HonestUpstream (trace self es)) (pre post : List Obs) (r : Req) (p : Proc)
    (h : trace self es = pre ++ Obs.wire r p :: post) (hk : r.kind = .commit) (h1 : r.onePhase = false) :
    ∃ a b, pre = a ++ Obs.issued r :: b ∧
      ∃ rt origin dest reqs recv, origin.xid.g = r.trid.xid.g ∧ Unanimous a rt origin dest reqs recv := by
  have hw := (reach_IW self es).wire pre _ post h
  obtain ⟨a, b, rfl⟩ := List.append_of_mem hw.1
  exact ⟨a, b, rfl, commit_after_unanimous self es hr hu a (b ++ Obs.wire r p :: post) r
    (by rw [h]; simp) hk h1⟩

example : HonestReplies (trace me twoPhase) ∧ HonestUpstream (trace me twoPhase) ∧
    Obs.issued ⟨.commit, 3, t9, 1, false⟩ ∈ trace me twoPhase ∧
    Obs.wire ⟨.commit, 4, t9, 2, false⟩ ⟨12, 112⟩ ∈ trace me twoPhase ∧
    Fresh 9 ((trace me twoPhase).takeWhile (· ≠ Obs.issued ⟨.commit, 3, t9, 1, false⟩)) :=
  ⟨honest_of (by decide +kernel), honestUp_of_none (by decide +kernel), by decide +kernel, by decide +kernel,
    by unfold Fresh; decide +kernel⟩

example : Obs.issued ⟨.commit, 3, t9, 1, false⟩ ∈ trace me upstream := by decide +kernel

/-! ## C04: an ok answer means no resource reported failure -/

/-- TX_OK for a commit request: there was nothing to commit (answered at once), or all voted read-only, or all commit
requests of this transaction succeeded; no resource had failed -/
theorem commit_ok_means_success (self : Proc) (es : List Event) (pre post : List Obs) (to : Proc) (a : Answer)
    (h : trace self es = pre ++ Obs.answer to a :: post) (h1 : a.rtype = .commit) (h2 : a.status = .tx .ok)
    (h3 : a.stage = some .commit) :
    (∃ p trid inv, pre = p ++ [Obs.ev (.commit to a.corr trid inv)] ∧ trid.xid.g = a.g) ∨
    (∃ origin dest reqs recv, dest.proc = to ∧ dest.corr = a.corr ∧ origin.xid.g = a.g ∧
      Obs.fanout .prepare .commit origin dest reqs ∈ pre ∧ Recv pre .prepare reqs recv ∧
      AllGood reqs recv (· = .read_only)) ∨
    (∃ origin dest reqs recv, dest.proc = to ∧ dest.corr = a.corr ∧ origin.xid.g = a.g ∧
      Obs.fanout .commit .commit origin dest reqs ∈ pre ∧ Recv pre .commit reqs recv ∧
      AllGood reqs recv Done) :=
  (claims self es pre _ post h).2.1 h1 h2 h3

/-- TX_OK for a rollback request: all rollback requests succeeded -/
theorem rollback_ok_means_success (self : Proc) (es : List Event) (pre post : List Obs) (to : Proc) (a : Answer)
    (h : trace self es = pre ++ Obs.answer to a :: post) (h1 : a.rtype = .rollback) (h2 : a.status = .tx .ok) :
    ∃ origin dest reqs recv, dest.proc = to ∧ dest.corr = a.corr ∧ origin.xid.g = a.g ∧
      Obs.fanout .rollback .rollback origin dest reqs ∈ pre ∧ Recv pre .rollback reqs recv ∧
      AllGood reqs recv Done :=
  (claims self es pre _ post h).2.2.1 h1 h2

/-- ok to an upstream coordinator's commit: all commit requests succeeded -/
theorem upstream_commit_ok_means_success (self : Proc) (es : List Event) (pre post : List Obs) (to : Proc) (a : Answer)
    (h : trace self es = pre ++ Obs.answer to a :: post) (h1 : a.rtype = .resCommit) (h2 : a.status = .xa .ok) :
    ∃ origin dest reqs recv, dest.proc = to ∧ dest.corr = a.corr ∧ origin.xid.g = a.g ∧
      Obs.fanout .commit .resCommit origin dest reqs ∈ pre ∧ Recv pre .commit reqs recv ∧
      AllGood reqs recv Done :=
  (claims self es pre _ post h).2.2.2.1 h1 h2

/-- ok vote to an upstream coordinator: all our resources voted ok or read-only -/
theorem upstream_vote_ok_means_unanimous (self : Proc) (es : List Event) (pre post : List Obs) (to : Proc) (a : Answer)
    (h : trace self es = pre ++ Obs.answer to a :: post) (h1 : a.rtype = .resPrepare) (h2 : a.status = .xa .ok) :
    ∃ origin dest reqs recv, Unanimous pre .resPrepare origin dest reqs recv ∧
      dest.proc = to ∧ dest.corr = a.corr ∧ origin.xid.g = a.g :=
  (claims self es pre _ post h).1 h1 h2

example : Obs.answer app ⟨.commit, 7, 9, 0, .tx .ok, some .commit⟩ ∈ trace me twoPhase ∧
    Obs.answer app ⟨.resPrepare, 7, 9, 5, .xa .ok, none⟩ ∈ trace me upstream ∧
    Obs.answer app ⟨.resCommit, 8, 9, 5, .xa .ok, none⟩ ∈ trace me upstream ∧
    Obs.answer app ⟨.rollback, 7, 9, 0, .tx .ok, none⟩ ∈
      trace me (up ++ [.rollback app 7 t9 [1], .reply ⟨.rollback, 1, t9, 1, .ok, 11⟩]) := by decide +kernel

/-! ## C05: second phase -/

/-- The second phase the manager decides on itself (commit after an application's commit request, rollback after a
failed prepare): its requests go exactly to the resources whose prepare answer was not read-only, one for each
answer. -/
theorem second_phase_exact_partial (self : Proc) (es : List Event) (pre post : List Obs) (kind : Kind) (rt : RType)
    (origin : Trid) (dest : Dest) (reqs : List Req)
    (h : trace self es = pre ++ Obs.fanout kind rt origin dest reqs :: post)
    (hs : (kind = .rollback ∧ (rt = .commit ∨ rt = .resCommit)) ∨
      (kind = .commit ∧ rt = .commit ∧ ∃ q ∈ reqs, q.onePhase = false)) :
    ∃ preqs recv, Obs.fanout .prepare rt origin dest preqs ∈ pre ∧ Recv pre .prepare preqs recv ∧
      reqs.map (fun q => (q.trid, q.rm)) =
        (recv.filter (fun m => m.code ≠ .read_only)).map (fun m => (m.trid, m.rm)) :=
  (claims self es pre _ post h).2.2 hs

/-- Nothing is requested of a resource other than by a fan-out: in order, the requests issued are the requests of the
fan-outs, (kind, branch, resource, one-phase). -/
theorem issued_are_fanouts (self : Proc) (es : List Event) :
    (trace self es).filterMap (fun o => match o with
        | .issued r => some (r.kind, r.trid, r.rm, r.onePhase) | _ => none) =
      (trace self es).flatMap (fun o => match o with
        | .fanout _ _ _ _ reqs => reqs.map (fun r => (r.kind, r.trid, r.rm, r.onePhase)) | _ => []) := by
  have h := (reach_E self es).seq
  rw [List.append_nil] at h
  unfold issuedSeq fanoutSeq at h
  have e1 : ∀ tr : List Obs, tr.filterMap (fun o => match o with
        | .issued r => some (r.kind, r.trid, r.rm, r.onePhase) | _ => none) = (tr.filterMap issued?).map Req.core := by
    intro tr
    rw [List.map_filterMap]
    congr 1
    funext o
    cases o <;> rfl
  have e2 : (fun o => match o with
        | .fanout _ _ _ _ reqs => reqs.map (fun r => (r.kind, r.trid, r.rm, r.onePhase)) | _ => []) = fanoutReqs := by
    funext o
    cases o <;> rfl
  rw [e1, e2]
  exact h

example : Obs.fanout .rollback .commit t9 ⟨app, 7, 0⟩ [⟨.rollback, 3, t9, 2, false⟩] ∈ trace me mixed ∧
    Obs.fanout .commit .commit t9 ⟨app, 7, 0⟩ [⟨.commit, 3, t9, 1, false⟩, ⟨.commit, 4, t9, 2, false⟩] ∈ trace me twoPhase := by
  decide +kernel

/-! ## C07: prepare is durable before anybody is told -/

/-- Before a "prepared" answer leaves, rows for the transaction have been logged and made durable (no crash between);
the rows include the branch of every resource that was asked to prepare and has not voted read-only. -/
theorem prepared_is_durable (self : Proc) (es : List Event) (pre post : List Obs) (to : Proc) (a : Answer)
    (h : trace self es = pre ++ Obs.answer to a :: post) (hp : Prepared a) :
    ∃ rows p1 p2 p3, pre = p1 ++ Obs.logged a.g rows :: (p2 ++ Obs.persisted :: p3) ∧ Obs.ev .crash ∉ p2 ∧
      (∀ x ∈ rows, x.g = a.g) ∧
      (Fresh a.g p1 → ∀ x rm, Asked a.g p1 x rm → x ∈ rows ∨ SaidReadOnly p1 x rm) := by
  have hc := claims self es pre _ post h
  obtain ⟨rows, p1, p2, p3, he, hcr⟩ := hc.2.2.2.2 hp
  have h' : trace self es = p1 ++ Obs.logged a.g rows :: (p2 ++ Obs.persisted :: p3 ++ Obs.answer to a :: post) := by
    rw [h, he]; simp
  exact ⟨rows, p1, p2, p3, he, hcr, claims self es p1 _ _ h', (reach_Cov self es).logs p1 _ _ h'⟩

/-- what is on disk, read off the observations: rows are added, rows of a finished transaction are deleted, and both
become durable when the log is persisted (or the manager ends in order); a crash falls back to what is durable -/
theorem log_is_replay (self : Proc) (es : List Event) : (run (init self) es).log = replay (trace self es) :=
  (reach_E self es).log

/-- rows that were logged and persisted are on disk as long as the transaction is not finished -/
theorem logged_persisted_survives (l0 : Log) (g : Nat) (rows : List Xid) (hg : ∀ x ∈ rows, x.g = g) (p2 p3 : List Obs)
    (hc : Obs.ev .crash ∉ p2) (hr : Obs.removed g ∉ p2 ++ p3) :
    ∀ x ∈ rows, x ∈ ((Obs.logged g rows :: (p2 ++ Obs.persisted :: p3)).foldl logStep l0).durable := by
  intro x hx
  -- in `current` along p2
  have h1 : ∀ (l : List Obs) (s : Log), Obs.ev .crash ∉ l → Obs.removed g ∉ l → x ∈ s.current →
      x ∈ (l.foldl logStep s).current := by
    intro l
    induction l with
    | nil => exact fun _ _ _ h => h
    | cons o l ih =>
      intro s hc hr hs
      rw [List.foldl_cons]
      refine ih _ (fun h => hc (by simp [h])) (fun h => hr (by simp [h])) ?_
      cases o with
      | logged g' r => simp [logStep, hs]
      | removed g' =>
        have : g' ≠ g := by rintro rfl; simp at hr
        refine List.mem_filter.mpr ⟨hs, ?_⟩
        simp [hg x hx, this.symm]
      | ev e =>
        cases e with
        | crash => simp at hc
        | _ => exact hs
      | _ => exact hs
  -- in both along p3
  have h2 : ∀ (l : List Obs) (s : Log), Obs.removed g ∉ l → x ∈ s.current → x ∈ s.durable →
      x ∈ (l.foldl logStep s).durable := by
    intro l
    induction l with
    | nil => exact fun _ _ _ h => h
    | cons o l ih =>
      intro s hr hs hd
      rw [List.foldl_cons]
      have hr' : Obs.removed g ∉ l := fun h => hr (by simp [h])
      cases o with
      | logged g' r => exact ih _ hr' (by simp [logStep, hs]) hd
      | removed g' =>
        have : g' ≠ g := by rintro rfl; simp at hr
        exact ih _ hr' (List.mem_filter.mpr ⟨hs, by simp [hg x hx, this.symm]⟩) hd
      | persisted => exact ih _ hr' hs hs
      | halted => exact ih _ hr' hs hs
      | ev e =>
        cases e with
        | crash => exact ih _ hr' hd hd
        | _ => exact ih _ hr' hs hd
      | _ => exact ih _ hr' hs hd
  rw [List.foldl_cons, List.foldl_append, List.foldl_cons]
  have a1 := h1 p2 (logStep l0 (.logged g rows)) hc (fun h => hr (by simp [h])) (by simp [logStep, hx])
  exact h2 p3 _ (fun h => hr (by simp [h])) a1 a1

/-- together: at the moment a "prepared" answer has been given, and ever after until the transaction is finished, crash
or not, the durable log has the branch of each resource that was asked and did not vote read-only -/
theorem prepared_survives (self : Proc) (es : List Event) (pre post : List Obs) (to : Proc) (a : Answer)
    (h : trace self es = pre ++ Obs.answer to a :: post) (hp : Prepared a) (hf : Obs.removed a.g ∉ trace self es) :
    ∃ p1 rows, (∃ p, pre = p1 ++ Obs.logged a.g rows :: p) ∧
      (Fresh a.g p1 → ∀ x rm, Asked a.g p1 x rm → x ∈ rows ∨ SaidReadOnly p1 x rm) ∧
      ∀ x ∈ rows, x ∈ (run (init self) es).log.durable := by
  obtain ⟨rows, p1, p2, p3, he, hcr, hg, hcov⟩ := prepared_is_durable self es pre post to a h hp
  refine ⟨p1, rows, ⟨_, he⟩, hcov, ?_⟩
  rw [log_is_replay, h, he]
  unfold replay
  rw [List.append_assoc, List.foldl_append]
  have : Obs.logged a.g rows :: (p2 ++ Obs.persisted :: p3) ++ Obs.answer to a :: post =
      Obs.logged a.g rows :: (p2 ++ Obs.persisted :: (p3 ++ Obs.answer to a :: post)) := by simp
  rw [this]
  refine logged_persisted_survives _ a.g rows hg _ _ hcr ?_
  intro hm
  apply hf
  rw [h, he]
  simp only [List.mem_append, List.mem_cons] at hm ⊢
  grind

example : Obs.answer app ⟨.commit, 7, 9, 0, .tx .ok, some .prepare⟩ ∈ trace me twoPhase ∧
    Asked 9 (trace me twoPhase) ⟨9, 1⟩ 2 ∧
    Obs.removed 9 ∉ trace me (twoPhase.take 8) ∧
    Obs.answer app ⟨.commit, 7, 9, 0, .tx .ok, some .prepare⟩ ∈ trace me (twoPhase.take 8) :=
  ⟨by decide +kernel,
   ⟨.commit, t9, ⟨app, 7, 0⟩, [⟨.prepare, 1, t9, 1, false⟩, ⟨.prepare, 2, t9, 2, false⟩], by decide +kernel, rfl, by decide +kernel⟩,
   by decide +kernel, by decide +kernel⟩

/-! ## C08: the commit decision is durable before resources are told: false -/

/-- a phase-two commit request goes out although nothing is durable -/
theorem decision_durable_refuted :
    ∃ self es r p, Obs.wire r p ∈ trace self es ∧ r.kind = .commit ∧ r.onePhase = false ∧
      Obs.persisted ∉ trace self es ∧ (run (init self) es).log.durable = [] ∧
      (run (init self) (es ++ [.crash])).log.durable = [] :=
  ⟨me, twoPhase.take 7, ⟨.commit, 3, t9, 1, false⟩, ⟨11, 111⟩, by decide +kernel⟩

/-- what holds instead: the decision has been written to the log before (not necessarily durable); or it was taken by
an upstream coordinator -/
theorem decision_logged_partial (self : Proc) (es : List Event) (hr : HonestReplies (trace self es))
    (pre post : List Obs) (r : Req)
    (h : trace self es = pre ++ Obs.issued r :: post) (hk : r.kind = .commit) (h1 : r.onePhase = false) :
    (∃ rows, Obs.logged r.trid.xid.g rows ∈ pre) ∨
    (∃ p c trid rm op, Obs.ev (.extCommit p c trid rm op) ∈ pre ∧ trid.xid.g = r.trid.xid.g) := by
  have hc := claims self es pre _ post h hk
  rw [h1] at hc
  simp only [Bool.false_eq_true, if_false] at hc
  rcases hc with ⟨rt, o, d, reqs, recv, ⟨hf, hrc, -⟩, ⟨m, hm, -, hmt, -⟩, rows, hl⟩ | ⟨p1, p2, p, c, t, rm, op, he, hg, -⟩
  · refine .inl ⟨rows, ?_⟩
    rw [h] at hr
    obtain ⟨hgot, hmk, q, hq, hqc⟩ := hrc.1 m hm
    have := (hr.prefix m hgot .prepare rt o d reqs hf hmk q hq hqc).1
    have hcl : Always Claim pre := by
      have := claims self es
      rw [h] at this
      exact this.prefix
    obtain ⟨a, b, _, hfan⟩ := hcl.mem hf
    rw [← hmt, this, hfan.2.1 rfl q hq]
    exact hl
  · exact .inr ⟨p, c, t, rm, op, by rw [he]; simp, hg⟩

end Casual.TM
