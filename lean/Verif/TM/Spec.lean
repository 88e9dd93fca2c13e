import Verif.TM.Model
/-!
# What is claimed about the trace of the transaction manager

Everything here speaks about the observations (`Obs`) only: requests put out, replies got, answers
given, log writes; not about the manager's data structures.
-/
namespace Casual.TM
open Casual.Code

/-- `Q` holds of every observation together with everything that came before it. -/
def Always (Q : List Obs → Obs → Prop) (tr : List Obs) : Prop :=
  ∀ pre o post, tr = pre ++ o :: post → Q pre o

/-- `recv` are the replies got for the requests of a fan-out: at most one for each correlation, and
every request has one or its resource has been declared failed. -/
def Recv (tr : List Obs) (kind : Kind) (reqs : List Req) (recv : List Rep) : Prop :=
  (∀ m ∈ recv, Obs.got m ∈ tr ∧ m.kind = kind ∧ ∃ q ∈ reqs, q.corr = m.corr) ∧
  (recv.map (·.corr)).Nodup ∧
  (∀ q ∈ reqs, (∃ m ∈ recv, m.corr = q.corr) ∨ Obs.failed q.rm ∈ tr)

/-- every request of the fan-out has been answered, and all answers are good -/
def AllGood (reqs : List Req) (recv : List Rep) (good : Xa → Prop) : Prop :=
  (∀ q ∈ reqs, ∃ m ∈ recv, m.corr = q.corr) ∧ ∀ m ∈ recv, good m.code

def Vote (c : Xa) : Prop := c = .ok ∨ c = .read_only
def Done (c : Xa) : Prop := c = .ok ∨ c = .read_only ∨ c = .invalid_xid

/-- A completed prepare fan-out in which everybody voted ok or read-only. -/
def Unanimous (tr : List Obs) (rt : RType) (origin : Trid) (dest : Dest) (reqs : List Req)
    (recv : List Rep) : Prop :=
  Obs.fanout .prepare rt origin dest reqs ∈ tr ∧ Recv tr .prepare reqs recv ∧ AllGood reqs recv Vote

/-- The local coordinator decided to commit: all voted, and this resource voted ok on this branch. -/
def DecidedHere (tr : List Obs) (r : Req) : Prop :=
  ∃ rt origin dest reqs recv, Unanimous tr rt origin dest reqs recv ∧
    (∃ m ∈ recv, m.code = .ok ∧ m.trid = r.trid ∧ m.rm = r.rm) ∧
    (∃ rows, Obs.logged origin.xid.g rows ∈ tr)

/-- An upstream coordinator decided to commit, after a completed prepare it had asked for. -/
def DecidedUpstream (tr : List Obs) (r : Req) : Prop :=
  ∃ p1 p2 p c trid rm op, tr = p1 ++ Obs.ev (.extCommit p c trid rm op) :: p2 ∧
    trid.xid.g = r.trid.xid.g ∧
    ∃ origin dest reqs recv, Obs.fanout .prepare .resPrepare origin dest reqs ∈ p1 ∧
      origin.xid.g = r.trid.xid.g ∧ Recv p1 .prepare reqs recv

/-- log rows of the transaction were written and made durable, with no crash in between -/
def LoggedPersisted (tr : List Obs) (g : Nat) : Prop :=
  ∃ rows p1 p2 p3, tr = p1 ++ Obs.logged g rows :: (p2 ++ Obs.persisted :: p3) ∧ Obs.ev .crash ∉ p2

/-- An answer that says "prepared". -/
def Prepared (a : Answer) : Prop :=
  (a.rtype = .commit ∧ a.stage = some .prepare) ∨ (a.rtype = .resPrepare ∧ a.status = .xa .ok)

/-- an ok vote given upstream is justified -/
def VoteOk (tr : List Obs) (to : Proc) (a : Answer) : Prop :=
  a.rtype = .resPrepare → a.status = .xa .ok →
    ∃ origin dest reqs recv, Unanimous tr .resPrepare origin dest reqs recv ∧
      dest.proc = to ∧ dest.corr = a.corr ∧ origin.xid.g = a.g

/-- an ok commit answer is justified: it is given at once when the request is taken up (there is nothing to
commit), or all votes were read-only, or all commit requests succeeded -/
def CommitOk (tr : List Obs) (to : Proc) (a : Answer) : Prop :=
  a.rtype = .commit → a.status = .tx .ok → a.stage = some .commit →
    (∃ p trid inv, tr = p ++ [Obs.ev (.commit to a.corr trid inv)] ∧ trid.xid.g = a.g) ∨
    (∃ origin dest reqs recv, dest.proc = to ∧ dest.corr = a.corr ∧ origin.xid.g = a.g ∧
      Obs.fanout .prepare .commit origin dest reqs ∈ tr ∧ Recv tr .prepare reqs recv ∧
      AllGood reqs recv (· = .read_only)) ∨
    (∃ origin dest reqs recv, dest.proc = to ∧ dest.corr = a.corr ∧ origin.xid.g = a.g ∧
      Obs.fanout .commit .commit origin dest reqs ∈ tr ∧ Recv tr .commit reqs recv ∧
      AllGood reqs recv Done)

/-- an ok rollback answer is justified -/
def RollbackOk (tr : List Obs) (to : Proc) (a : Answer) : Prop :=
  a.rtype = .rollback → a.status = .tx .ok →
    ∃ origin dest reqs recv, dest.proc = to ∧ dest.corr = a.corr ∧ origin.xid.g = a.g ∧
      Obs.fanout .rollback .rollback origin dest reqs ∈ tr ∧ Recv tr .rollback reqs recv ∧
      AllGood reqs recv Done

/-- an ok (not read-only) commit answer to an upstream coordinator is justified -/
def ExtCommitOk (tr : List Obs) (to : Proc) (a : Answer) : Prop :=
  a.rtype = .resCommit → a.status = .xa .ok →
    ∃ origin dest reqs recv, dest.proc = to ∧ dest.corr = a.corr ∧ origin.xid.g = a.g ∧
      Obs.fanout .commit .resCommit origin dest reqs ∈ tr ∧ Recv tr .commit reqs recv ∧
      AllGood reqs recv Done

/-- second phase requests go exactly to those whose vote was not read-only -/
def SecondPhase (tr : List Obs) (kind : Kind) (rt : RType) (origin : Trid) (dest : Dest)
    (reqs : List Req) : Prop :=
  (kind = .rollback ∧ (rt = .commit ∨ rt = .resCommit)) ∨
    (kind = .commit ∧ rt = .commit ∧ ∃ q ∈ reqs, q.onePhase = false) →
  ∃ preqs recv, Obs.fanout .prepare rt origin dest preqs ∈ tr ∧ Recv tr .prepare preqs recv ∧
    reqs.map (fun q => (q.trid, q.rm)) =
      (recv.filter (fun m => m.code ≠ .read_only)).map (fun m => (m.trid, m.rm))

/-- the claim about one observation -/
def Claim (tr : List Obs) : Obs → Prop
  | .issued r => r.kind = .commit →
      if r.onePhase then ∃ p c trid inv, Obs.ev (.commit p c trid inv) ∈ tr ∧ trid.xid.g = r.trid.xid.g
      else DecidedHere tr r ∨ DecidedUpstream tr r
  | .answer to a => VoteOk tr to a ∧ CommitOk tr to a ∧ RollbackOk tr to a ∧ ExtCommitOk tr to a ∧
      (Prepared a → LoggedPersisted tr a.g)
  | .fanout kind rt origin dest reqs => (∀ q ∈ reqs, q.kind = kind) ∧
      (kind = .prepare → ∀ q ∈ reqs, q.trid.xid.g = origin.xid.g) ∧
      SecondPhase tr kind rt origin dest reqs
  | .logged g rows => ∀ x ∈ rows, x.g = g
  | _ => True

end Casual.TM
