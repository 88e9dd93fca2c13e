import Verif.DManager.DownSpec
import Verif.DManager.Pids

/-! The shutdown: a batch is stopped when those before it are gone. -/
namespace Casual.DManager

open Casual.Task

/-! ### Instances that are to exit -/

theorem removeInst_sub {r : Bool} {pid : Pid} {i : Inst} : ∀ {is : List Inst}, (∀ j ∈ is, j.wanted = .exit) →
    i ∈ removeInst r pid is → i ∈ is
  | [], _, h => h
  | j :: is, hw, h => by
    unfold removeInst at h
    split at h
    · rw [hw j List.mem_cons_self] at h
      exact List.mem_cons_of_mem _ h
    · rcases List.mem_cons.1 h with rfl | h
      · exact List.mem_cons_self
      · exact List.mem_cons_of_mem _ (removeInst_sub (fun x hx => hw x (List.mem_cons_of_mem _ hx)) h)

/-- A process of the entity is there. -/
def UpOf (k : Kind) (h : Handle) : Prop := h.pid ≠ 0 ∧ (k = .server → h.ipc ≠ 0)

theorem exit_state {k : Kind} {i : Inst} (hw : i.wanted = .exit) : i.state k = .scaleIn ↔ UpOf k i.handle := by
  unfold Inst.state UpOf
  rw [hw]
  cases k <;> simp [Handle.ok]

theorem exit_state' {k : Kind} {i : Inst} (hw : i.wanted = .exit) : i.state k = .exit ↔ ¬ UpOf k i.handle := by
  unfold Inst.state UpOf
  rw [hw]
  cases k <;> simp [Handle.ok]

theorem scale_zero (e : Entity) {i : Inst} : i ∈ (e.scale 0).instances ↔
    ∃ j ∈ e.instances, i = { j with wanted := .exit } ∧ UpOf e.id.kind j.handle := by
  unfold Entity.scale
  rw [if_neg (Nat.not_lt_zero _)]
  dsimp only
  simp only [List.take_zero, List.map_nil, List.nil_append, List.drop_zero]
  rw [List.mem_filter, List.mem_map]
  constructor
  · rintro ⟨⟨j, hj, rfl⟩, h2⟩
    refine ⟨j, ?_, rfl, ?_⟩
    · rcases List.mem_append.1 hj with hj | hj <;> exact (List.mem_filter.1 hj).1
    · refine Classical.byContradiction fun hc => ?_
      rw [exit_state' (i := { j with wanted := .exit }) rfl |>.2 hc] at h2
      simp at h2
  · rintro ⟨j, hj, rfl, h2⟩
    refine ⟨⟨j, ?_, rfl⟩, ?_⟩
    · rw [List.mem_append, List.mem_filter, List.mem_filter]
      by_cases hs : j.state e.id.kind = .running
      · exact Or.inl ⟨hj, by simp [hs]⟩
      · exact Or.inr ⟨hj, by simp [hs]⟩
    · rw [(exit_state (i := { j with wanted := .exit }) rfl).2 h2]
      rfl

theorem takeWhile_all {p : Inst → Bool} : ∀ {is : List Inst}, (∀ i ∈ is, p i = true) → is.takeWhile p = is
  | [], _ => rfl
  | i :: is, h => by
    rw [List.takeWhile_cons, h i List.mem_cons_self]
    simp only [if_true]
    rw [takeWhile_all fun j hj => h j (List.mem_cons_of_mem _ hj)]

theorem dropWhile_none {p : Inst → Bool} {is : List Inst} (h : ∀ i ∈ is, p i = false) : is.dropWhile p = is := by
  cases is with
  | nil => rfl
  | cons i is => rw [List.dropWhile_cons, h i List.mem_cons_self]; rfl

theorem shutdownable_all {e : Entity} (h : ∀ i ∈ e.instances, i.state e.id.kind = .scaleIn) : e.shutdownable = e.instances := by
  unfold Entity.shutdownable series
  dsimp only
  rw [dropWhile_none (fun i hi => by simp [h i hi]), takeWhile_all (fun i hi => by simp [h i hi])]

theorem scaleOut_none {lib : Lib} {c : Core} {e : Entity} (h : ∀ i ∈ e.instances, i.state e.id.kind ≠ .scaleOut) :
    c.scaleOut lib e = c := by
  have hm : e.spawnable.2.1 = [] := by
    cases hs : e.spawnable.2.1 with
    | nil => rfl
    | cons i is =>
      have h1 : i ∈ e.spawnable.2.1 := by rw [hs]; exact List.mem_cons_self
      refine absurd (spawnable_mid h1) (h i ?_)
      rw [← spawnable_append e]
      simp [h1]
  unfold Core.scaleOut
  dsimp only
  rw [hm]
  rfl

theorem occ_unique {es : List Entity} {p : Pid} (h : occ es p ≤ 1) {e1 e2 : Entity} (h1 : e1 ∈ es) (h2 : e2 ∈ es)
    (c1 : 0 < count e1.instances p) (c2 : 0 < count e2.instances p) : e1 = e2 := by
  induction es with
  | nil => cases h1
  | cons x es ih =>
    rw [occ_cons] at h
    rcases List.mem_cons.1 h1 with e1h | h1
    · rcases List.mem_cons.1 h2 with e2h | h2
      · rw [e1h, e2h]
      · have := occ_mem (p := p) h2
        rw [e1h] at c1
        omega
    · rcases List.mem_cons.1 h2 with e2h | h2
      · have := occ_mem (p := p) h1
        rw [e2h] at c2
        omega
      · exact ih (by omega) h1 h2

/-! ### The invariant -/

/-- What is true when something is on its way to stop a process. -/
def Ordered (bs : List Batch) (U : EId → Handle → Prop) (before : List Item) (a : Item) : Prop :=
  ∀ e h, U e h → a.stops h.pid → ∀ e' h', U e' h' → Earlier bs e' e → .inp (.exit h'.pid) ∈ before

/-- The processes when the shutdown was asked for. -/
structure Known (m : EId) (U : EId → Handle → Prop) : Prop where
  up : ∀ {e h}, U e h → UpOf e.kind h
  notMe : ∀ {e h}, U e h → e ≠ m
  one : ∀ {e h e' h'}, U e h → U e' h' → h.pid = h'.pid → e = e'

structure DGood (bs : List Batch) (m : EId) (U : EId → Handle → Prop) (L0 : List Item) (pre : List Batch) (l : List Item) (c : Core) :
    Prop where
  level : 2 ≤ c.runlevel.toNat
  once : ∀ p, p ≠ 0 → occ c.entities p ≤ 1
  log : c.log = L0 ++ l
  all : ∀ x ∈ c.entities, x.id ≠ m → ∀ i ∈ x.instances, i.wanted = .exit ∧ U x.id i.handle ∧ .inp (.exit i.handle.pid) ∉ l
  track : ∀ e h, U e h → .inp (.exit h.pid) ∈ l ∨ ∃ x ∈ c.entities, x.id = e ∧ ∃ i ∈ x.instances, i.handle = h
  clear : ∀ b ∈ pre, ∀ e ∈ b.members, ∀ x ∈ c.entities, x.id = e → x.instances = []
  own : ∀ hs, .prepareReply hs ∈ c.own → .prepareOwn hs ∈ l
  order : Answers l → Always (Ordered bs U) l

/-- All that is left of a batch is on its way to be stopped. -/
def Asked (ms : List EId) (l : List Item) (c : Core) : Prop :=
  ∀ e ∈ ms, ∀ x ∈ c.entities, x.id = e → ∀ i ∈ x.instances, ∃ a ∈ l, a.stops i.handle.pid

section
variable {bs : List Batch} {m : EId} {U : EId → Handle → Prop} {L0 : List Item}

theorem DGood.ext {pre : List Batch} {l ext : List Item} {c c' : Core} (h : DGood bs m U L0 pre l c)
    (he : c'.entities = c.entities) (hl : c'.runlevel = c.runlevel) (hx : c'.log = c.log ++ ext)
    (ho : ∀ hs, .prepareReply hs ∈ c'.own → .prepareReply hs ∈ c.own ∨ .prepareOwn hs ∈ ext)
    (hn : ∀ p, .inp (.exit p) ∉ ext)
    (hord : Answers (l ++ ext) → ∀ a x b, ext = a ++ x :: b → Ordered bs U (l ++ a) x) :
    DGood bs m U L0 pre (l ++ ext) c' := by
  refine ⟨by rw [hl]; exact h.level, by rw [he]; exact h.once, by rw [hx, h.log, List.append_assoc], ?_, ?_, ?_, ?_, ?_⟩
  · rw [he]
    intro x hx hm i hi
    obtain ⟨h1, h2, h3⟩ := h.all x hx hm i hi
    refine ⟨h1, h2, ?_⟩
    simp only [List.mem_append, not_or]
    exact ⟨h3, hn _⟩
  · rw [he]
    intro e hh hu
    exact (h.track e hh hu).imp (List.mem_append_left _) (fun h => h)
  · rw [he]; exact h.clear
  · intro hs hm
    rcases ho hs hm with h1 | h1
    · exact List.mem_append_left _ (h.own hs h1)
    · exact List.mem_append_right _ h1
  · intro ha
    exact Always.appendSplit (h.order (Always.prefix ha)) (hord ha)

/-- Items that stop nothing. -/
theorem DGood.mild {pre : List Batch} {l ext : List Item} {c c' : Core} (h : DGood bs m U L0 pre l c)
    (he : c'.entities = c.entities) (hl : c'.runlevel = c.runlevel) (hx : c'.log = c.log ++ ext)
    (ho : ∀ hs, .prepareReply hs ∈ c'.own → .prepareReply hs ∈ c.own)
    (hn : ∀ i ∈ ext, i.still = true ∧ ∀ p, ¬ i.stops p) : DGood bs m U L0 pre (l ++ ext) c' := by
  refine h.ext he hl hx (fun hs hm => Or.inl (ho hs hm)) ?_ ?_
  · intro p hm
    have := (hn _ hm).1
    cases this
  · intro _ a x b hxe e hh _ hs
    exact absurd hs ((hn x (by rw [hxe]; simp)).2 _)

theorem Asked.ext {ms : List EId} {l ext : List Item} {c c' : Core} (h : Asked ms l c) (he : c'.entities = c.entities) :
    Asked ms (l ++ ext) c' := by
  intro e hm x hx
  rw [he] at hx
  intro hid i hi
  obtain ⟨a, h1, h2⟩ := h e hm x hx hid i hi
  exact ⟨a, List.mem_append_left _ h1, h2⟩

/-! ### A batch is started -/

theorem DGood.scaleIn {pre post : List Batch} {b : Batch} (ha : Apart bs) (hb : bs = pre ++ b :: post)
    (kn : Known m U) {l : List Item} {c : Core} (h : DGood bs m U L0 pre l c) {x : Entity} (hx : x ∈ c.entities)
    (hm : x.id ≠ m) (hxb : x.id ∈ b.members) :
    ∃ ext, DGood bs m U L0 pre (l ++ ext) (c.scaleIn x) ∧ ∀ i ∈ x.instances, ∃ a ∈ ext, a.stops i.handle.pid := by
  have hst : ∀ i ∈ x.instances, i.state x.id.kind = .scaleIn := by
    intro i hi
    obtain ⟨h1, h2, _⟩ := h.all x hx hm i hi
    exact (exit_state h1).2 (kn.up h2)
  -- when a process of the entity is stopped
  have key : ∀ (q : Item), (∀ p, q.stops p → ∃ i ∈ x.instances, i.handle.pid = p) → ∀ l', Ordered bs U (l ++ l') q := by
    intro q hq l' e hh hu hs e' hh' hu' hearly
    obtain ⟨i, hi, hp⟩ := hq _ hs
    have h1 := (h.all x hx hm i hi).2.1
    have h2 := kn.one h1 hu hp
    subst h2
    obtain ⟨_, b', hb', hm'⟩ := earlier_pre ha hb hxb hearly
    rcases h.track e' hh' hu' with h3 | ⟨y, h3, h4, j, h5, _⟩
    · exact List.mem_append_left _ h3
    · rw [h.clear b' hb' e' hm' y h3 h4] at h5
      cases h5
  have hse : (c.scaleIn x).entities = c.entities := scaleIn_entities c x
  have hsl : (c.scaleIn x).runlevel = c.runlevel := scaleIn_level c x
  have hall := shutdownable_all hst
  cases hemp : x.instances with
  | nil =>
    refine ⟨[], ?_, by simp⟩
    have : c.scaleIn x = c := by
      unfold Core.scaleIn
      rw [hall, hemp]
      rfl
    rw [this, List.append_nil]
    exact h
  | cons i0 is0 =>
    have hne : (x.shutdownable.reverse.map (·.handle)).isEmpty = false := by rw [hall, hemp]; simp
    have hmem : ∀ hh, hh ∈ x.shutdownable.reverse.map (·.handle) ↔ ∃ i ∈ x.instances, i.handle = hh := by
      intro hh
      rw [hall]
      simp
    rw [← hemp]
    clear hemp
    cases hk : x.id.kind with
    | executable =>
      refine ⟨(x.shutdownable.reverse.map (·.handle)).map fun h => .terminate h.pid, ?_, ?_⟩
      · refine h.ext hse hsl ?_ ?_ ?_ ?_
        · unfold Core.scaleIn
          simp only [hne, hk, Bool.false_eq_true, if_false]
          rfl
        · intro hs hin
          left
          unfold Core.scaleIn at hin
          simp only [hne, hk, Bool.false_eq_true, if_false] at hin
          exact hin
        · intro p hp
          obtain ⟨_, _, h1⟩ := List.mem_map.1 hp
          cases h1
        · intro _ a q q' hq
          have hq' : q ∈ (x.shutdownable.reverse.map (·.handle)).map fun h => Item.terminate h.pid := by rw [hq]; simp
          obtain ⟨hh, h1, rfl⟩ := List.mem_map.1 hq'
          refine key _ ?_ a
          intro p hp
          obtain ⟨i, hi, rfl⟩ := (hmem hh).1 h1
          exact ⟨i, hi, hp⟩
      · intro i hi
        exact ⟨_, List.mem_map.2 ⟨i.handle, (hmem _).2 ⟨i, hi, rfl⟩, rfl⟩, rfl⟩
    | server =>
      have e1 : c.scaleIn x = c.shutdownProcs (x.shutdownable.reverse.map (·.handle)) := by
        unfold Core.scaleIn
        simp only [hne, hk, Bool.false_eq_true, if_false]
      generalize x.shutdownable.reverse.map (·.handle) = hs at *
      have hstop : ∀ p, (∃ h ∈ hs, h.pid = p) → ∃ i ∈ x.instances, i.handle.pid = p := by
        rintro p ⟨hh, h1, rfl⟩
        obtain ⟨i, hi, rfl⟩ := (hmem hh).1 h1
        exact ⟨i, hi, rfl⟩
      have hasks : ∀ i ∈ x.instances, ∃ h ∈ hs, h.pid = i.handle.pid := fun i hi => ⟨_, (hmem _).2 ⟨i, hi, rfl⟩, rfl⟩
      have split1 : ∀ {q y : Item} {a z : List Item}, [q] = a ++ y :: z → a = [] ∧ y = q := by
        intro q y a z hh
        cases a with
        | nil => simp at hh; exact ⟨rfl, hh.1.symm⟩
        | cons _ _ => simp at hh
      have ownCase : c.shutdownProcs hs = ({ c with own := c.own ++ [.prepareReply hs] } : Core).say [.prepareOwn hs] →
          ∃ ext, DGood bs m U L0 pre (l ++ ext) (c.scaleIn x) ∧ ∀ i ∈ x.instances, ∃ a ∈ ext, a.stops i.handle.pid := by
        intro e2
        refine ⟨[.prepareOwn hs], ?_, fun i hi => ⟨_, List.mem_singleton.2 rfl, hasks i hi⟩⟩
        refine h.ext hse hsl (by rw [e1, e2]; rfl) ?_ (by simp) ?_
        · intro hs' hin
          rw [e1, e2] at hin
          rcases List.mem_append.1 hin with hin | hin
          · exact Or.inl hin
          · right
            simp at hin
            simp [hin]
        · intro _ a y z hy
          obtain ⟨rfl, rfl⟩ := split1 hy
          exact key (.prepareOwn hs) hstop []
      unfold Core.shutdownProcs at ownCase e1
      cases hsm : c.singleton serviceManager with
      | none =>
        simp only [hsm] at ownCase
        exact ownCase trivial
      | some hh =>
        simp only [hsm] at ownCase e1
        cases hok : hh.ok with
        | false =>
          simp only [hok, Bool.false_eq_true, if_false] at ownCase
          exact ownCase trivial
        | true =>
          simp only [hok, if_true] at e1
          refine ⟨[.prepare hs], ?_, fun i hi => ⟨_, List.mem_singleton.2 rfl, hasks i hi⟩⟩
          refine h.ext hse hsl (by rw [e1]; rfl) ?_ (by simp) ?_
          · intro hs' hin
            rw [e1] at hin
            exact Or.inl hin
          · intro _ a y z hy
            obtain ⟨rfl, rfl⟩ := split1 hy
            exact key (.prepare hs) hstop []

theorem DGood.scaleMembers {lib : Lib} {pre post : List Batch} {b : Batch} (ha : Apart bs) (hb : bs = pre ++ b :: post)
    (kn : Known m U) (hbm : ∀ e ∈ b.members, e ≠ m) : ∀ (ms done : List EId) {l : List Item} {c : Core},
    (c.entities.map (·.id)).Nodup → (∀ id ∈ ms, id ∈ b.members) → DGood bs m U L0 pre l c → Asked done l c →
    ∃ l', DGood bs m U L0 pre l' (c.scaleMembers lib ms) ∧ Asked (done ++ ms) l' (c.scaleMembers lib ms) ∧
      (c.scaleMembers lib ms).entities = c.entities
  | [], done, l, c, _, _, h, hd => ⟨l, h, by rw [List.append_nil]; exact hd, rfl⟩
  | id :: ms, done, l, c, hn, hms, h, hd => by
    have hstep : ∃ ext, DGood bs m U L0 pre (l ++ ext) (c.scaleInstances lib id) ∧
        Asked (done ++ [id]) (l ++ ext) (c.scaleInstances lib id) ∧ (c.scaleInstances lib id).entities = c.entities := by
      unfold Core.scaleInstances
      cases hf : c.find id with
      | none =>
        refine ⟨[], by rw [List.append_nil]; exact h, ?_, rfl⟩
        rw [List.append_nil]
        intro e he x hx hid
        rcases List.mem_append.1 he with he | he
        · exact hd e he x hx hid
        · have : e = id := by simpa using he
          subst this
          unfold Core.find at hf
          have := List.find?_eq_none.1 hf x hx
          simp [hid] at this
      | some x =>
        have hx := find_mem hf
        have hid := find_id hf
        have hxb : x.id ∈ b.members := by rw [hid]; exact hms id List.mem_cons_self
        obtain ⟨ext, h1, h2⟩ := h.scaleIn ha hb kn hx (hbm _ hxb) hxb
        have hso : (c.scaleIn x).scaleOut lib x = c.scaleIn x := by
          refine scaleOut_none ?_
          intro i hi
          obtain ⟨h3, h4, _⟩ := h.all x hx (hbm _ hxb) i hi
          rw [(exit_state h3).2 (kn.up h4)]
          simp
        dsimp only
        rw [hso]
        refine ⟨ext, h1, ?_, scaleIn_entities c x⟩
        intro e he y hy hyid i hi
        rcases List.mem_append.1 he with he | he
        · exact (Asked.ext hd (scaleIn_entities c x)) e he y hy hyid i hi
        · have : e = id := by simpa using he
          subst this
          rw [scaleIn_entities] at hy
          have : y = x := by
            have h3 := find_unique hn hy
            have h4 := find_unique hn hx
            rw [hyid] at h3
            rw [hid] at h4
            rw [h3] at h4
            exact (Option.some.inj h4)
          subst this
          obtain ⟨a, h3, h4⟩ := h2 i hi
          exact ⟨a, List.mem_append_right _ h3, h4⟩
    obtain ⟨ext, h1, h2, h3⟩ := hstep
    obtain ⟨l', h4, h5, h6⟩ := DGood.scaleMembers (lib := lib) ha hb kn hbm ms (done ++ [id]) (by rw [h3]; exact hn)
      (fun j hj => hms j (List.mem_cons_of_mem _ hj)) h1 h2
    refine ⟨l', h4, ?_, h6.trans h3⟩
    rw [List.append_assoc] at h5
    exact h5

/-! ### The stages -/

def DWait (bs : List Batch) (m : EId) (U : EId → Handle → Prop) (L0 : List Item) (pre : List Batch) (c : Core) : Prop :=
  (c.entities.map (·.id)).Nodup ∧ ∃ l, DGood bs m U L0 pre l c

def DRun (bs : List Batch) (m : EId) (U : EId → Handle → Prop) (L0 : List Item) (pre : List Batch) (b : Batch) (c : Core) : Prop :=
  (c.entities.map (·.id)).Nodup ∧ ∃ l, DGood bs m U L0 pre l c ∧ Asked b.members l c

def DOver (bs : List Batch) (U : EId → Handle → Prop) (L0 : List Item) (c : Core) : Prop :=
  2 ≤ c.runlevel.toNat ∧ ∃ l, c.log = L0 ++ l ∧ (∀ e h i, U e h → At bs i e → .inp (.exit h.pid) ∈ l) ∧
    (Answers l → Always (Ordered bs U) l)

theorem down_seq {lib : Lib} (ha : Apart bs) (kn : Known m U) (hbm : ∀ b ∈ bs, ∀ e ∈ b.members, e ≠ m) :
    Seq lib bs (.event 0) (DWait bs m U L0) (DRun bs m U L0) (DOver bs U L0) where
  start := by
    rintro pre b post c hb ⟨hn, l, h⟩
    obtain ⟨l', h1, h2, h3⟩ := DGood.scaleMembers (lib := lib) ha hb kn (hbm b (by rw [hb]; simp)) b.members [] hn
      (fun _ h => h) h (fun e he => by cases he)
    exact ⟨by rw [h3]; exact hn, l', h1, h2⟩
  finish := by
    rintro pre b post c hb ⟨hn, l, h, _⟩ hs
    refine ⟨hn, l ++ [.scaled b.members], ?_⟩
    have h1 : DGood bs m U L0 pre (l ++ [.scaled b.members]) (c.say [.scaled b.members]) :=
      h.mild rfl rfl rfl (fun _ h => h) (by simp [Item.still, Item.stops])
    refine ⟨h1.level, h1.once, h1.log, h1.all, h1.track, ?_, h1.own, h1.order⟩
    intro b' hb' e he x hx hid
    rcases List.mem_append.1 hb' with hb' | hb'
    · exact h1.clear b' hb' e he x hx hid
    · have : b' = b := by simpa using hb'
      subst this
      cases hi : x.instances with
      | nil => rfl
      | cons i is =>
        exfalso
        have him : i ∈ x.instances := by rw [hi]; exact List.mem_cons_self
        have hxm : x.id ≠ m := by rw [hid]; exact hbm b' (by rw [hb]; simp) e he
        obtain ⟨h2, h3, _⟩ := h.all x hx hxm i him
        have hf : c.find e = some x := by rw [← hid]; exact find_unique hn hx
        exact (settled_clear hs e he x hf i him).2.2 ((exit_state h2).2 (kn.up h3))
  ends := by
    rintro c ⟨hn, l, h⟩
    have h1 : DGood bs m U L0 bs (l ++ [.done 0]) (c.say [.done 0]) :=
      h.mild rfl rfl rfl (fun _ h => h) (by simp [Item.still, Item.stops])
    refine ⟨h1.level, l ++ [Item.done 0], h1.log, ?_, h1.order⟩
    rintro e hh i hu ⟨b, hb, he⟩
    rcases h1.track e hh hu with h2 | ⟨x, hx, hid, j, hj, _⟩
    · exact h2
    · rw [h1.clear b (List.mem_of_getElem? hb) e he x hx hid] at hj
      cases hj
  abort := rfl
  over := by
    rintro c c' f ⟨hl, l, h1, h2, h3⟩
    obtain ⟨ext, hx, _⟩ := f.log
    refine ⟨Nat.le_trans hl f.level, l ++ ext, by rw [hx, h1, List.append_assoc], ?_, ?_⟩
    · intro e hh i hu hat
      exact List.mem_append_left _ (h2 e hh i hu hat)
    · intro hans
      refine Always.appendSplit (h3 (Always.prefix hans)) ?_
      rintro a x b _ e hh _ _ e' hh' hu' ⟨i, j, _, hi, _⟩
      exact List.mem_append_left _ (h2 e' hh' i hu' hi)

/-! ### The inputs -/

theorem DGood.exit {pre : List Batch} {l : List Item} {c : Core} (h : DGood bs m U L0 pre l c) {pid : Pid} (hp : pid ≠ 0) :
    ((c.say [.inp (.exit pid)]).remove pid).2 = none ∧
    (((c.say [.inp (.exit pid)]).remove pid).1.entities.map (·.id)) = c.entities.map (·.id) ∧
    (∀ x ∈ ((c.say [.inp (.exit pid)]).remove pid).1.entities, x.id ≠ m → ∃ y ∈ c.entities, y.id = x.id ∧ ∀ i ∈ x.instances, i ∈ y.instances) ∧
    DGood bs m U L0 pre (l ++ [.inp (.exit pid)]) ((c.say [.inp (.exit pid)]).remove pid).1 := by
  obtain ⟨f0, hf0, hid0, hc0, hg0⟩ := remove_entities (c.say [.inp (.exit pid)]) pid
  have hlev : (c.say [.inp (.exit pid)]).runlevel ≠ .running := by
    intro hc
    have := h.level
    have h2 : c.runlevel = .running := hc
    rw [h2] at this
    exact absurd this (by decide)
  have hlog := remove_log (c.say [.inp (.exit pid)]) pid
  have hreq := remove_eq (c.say [.inp (.exit pid)]) pid hlev
  have hent : ((c.say [.inp (.exit pid)]).remove pid).1.entities =
      ((((c.say [.inp (.exit pid)]).forget pid).dropIn .server pid).dropIn .executable pid).entities := by rw [hreq]
  have hrl : ((c.say [.inp (.exit pid)]).remove pid).1.runlevel = c.runlevel := by
    rw [hreq]
    show ((((c.say [.inp (.exit pid)]).forget pid).dropIn .server pid).dropIn .executable pid).runlevel = _
    rw [dropIn_level, dropIn_level]
    rfl
  have hown : ((c.say [.inp (.exit pid)]).remove pid).1.own = c.own := by
    rw [hreq]
    show ((((c.say [.inp (.exit pid)]).forget pid).dropIn .server pid).dropIn .executable pid).own = _
    have : ∀ (c : Core) k, (c.dropIn k pid).own = c.own := by
      intro c k; unfold Core.dropIn; split <;> rfl
    rw [this, this]
    rfl
  have hnone : ((c.say [.inp (.exit pid)]).remove pid).2 = none := by rw [hreq]
  obtain ⟨f1, hf1, hid1, _, hk1⟩ := dropIn_entities ((c.say [.inp (.exit pid)]).forget pid) .server pid
  obtain ⟨f2, hf2, hid2, _, hk2⟩ := dropIn_entities (((c.say [.inp (.exit pid)]).forget pid).dropIn .server pid) .executable pid
  have hmap : ((c.say [.inp (.exit pid)]).remove pid).1.entities = c.entities.map fun e => f2 (f1 e) := by
    rw [hent, hf2, hf1, List.map_map]
    rfl
  have hgone : occ ((c.say [.inp (.exit pid)]).remove pid).1.entities pid = 0 := hg0 hp (h.once pid hp)
  have honce : ∀ p, p ≠ 0 → occ ((c.say [.inp (.exit pid)]).remove pid).1.entities p ≤ 1 := by
    intro p hp'
    rw [hf0]
    exact Nat.le_trans (occ_map _ fun e _ => hc0 e p hp') (h.once p hp')
  generalize (c.say [.inp (.exit pid)]).remove pid = r at *
  -- what is left, and what is kept
  have hid : ∀ e, (f2 (f1 e)).id = e.id := fun e => by rw [hid2, hid1]
  have sub : ∀ e, (∀ i ∈ e.instances, i.wanted = .exit) → ∀ i ∈ (f2 (f1 e)).instances, i ∈ e.instances := by
    intro e hw i hi
    have s1 : ∀ i ∈ (f1 e).instances, i ∈ e.instances := by
      intro i hi
      rcases hk1 e with h1 | h1
      · rw [h1] at hi; exact hi
      · rw [h1] at hi; exact removeInst_sub hw hi
    rcases hk2 (f1 e) with h1 | h1
    · rw [h1] at hi; exact s1 i hi
    · rw [h1] at hi
      exact s1 i (removeInst_sub (fun j hj => hw j (s1 j hj)) hi)
  have keep : ∀ e, ∀ i ∈ e.instances, i.handle.pid ≠ pid → i ∈ (f2 (f1 e)).instances := by
    intro e i hi hne
    have s1 : i ∈ (f1 e).instances := by
      rcases hk1 e with h1 | h1
      · rw [h1]; exact hi
      · rw [h1]; exact mem_removeInst hne hi
    rcases hk2 (f1 e) with h1 | h1
    · rw [h1]; exact s1
    · rw [h1]; exact mem_removeInst hne s1
  refine ⟨hnone, ?_, ?_, by rw [hrl]; exact h.level, honce, by rw [hlog]; show c.log ++ _ = _; rw [h.log, List.append_assoc], ?_, ?_, ?_, ?_, ?_⟩
  · rw [hmap, List.map_map]
    refine List.map_congr_left ?_
    intro e _
    exact hid e
  · intro x hx hm
    rw [hmap] at hx
    obtain ⟨e, he, rfl⟩ := List.mem_map.1 hx
    rw [hid] at hm
    exact ⟨e, he, (hid e).symm, sub e (fun i hi => (h.all e he hm i hi).1)⟩
  · intro x hx hm i hi
    have hne : i.handle.pid ≠ pid := by
      intro hc
      have h1 : 0 < count x.instances pid := count_pos.2 ⟨i, hi, hc⟩
      have h2 := occ_mem (p := pid) hx
      omega
    rw [hmap] at hx
    obtain ⟨e, he, rfl⟩ := List.mem_map.1 hx
    rw [hid] at hm ⊢
    obtain ⟨h1, h2, h3⟩ := h.all e he hm i (sub e (fun i hi => (h.all e he hm i hi).1) i hi)
    refine ⟨h1, h2, ?_⟩
    simp only [List.mem_append, List.mem_singleton, Item.inp.injEq, Input.exit.injEq, not_or]
    exact ⟨h3, hne⟩
  · intro e hh hu
    rcases h.track e hh hu with h1 | ⟨x, hx, hxid, i, hi, rfl⟩
    · exact Or.inl (List.mem_append_left _ h1)
    · by_cases hc : i.handle.pid = pid
      · left
        rw [hc]
        simp
      · right
        exact ⟨f2 (f1 x), by rw [hmap]; exact List.mem_map.2 ⟨x, hx, rfl⟩, by rw [hid]; exact hxid, i, keep x i hi hc, rfl⟩
  · intro b hb e he x hx hxid
    rw [hmap] at hx
    obtain ⟨y, hy, rfl⟩ := List.mem_map.1 hx
    rw [hid] at hxid
    have h1 := h.clear b hb e he y hy hxid
    cases h2 : (f2 (f1 y)).instances with
    | nil => rfl
    | cons i is =>
      have := sub y (by rw [h1]; simp) i (by rw [h2]; exact List.mem_cons_self)
      rw [h1] at this
      cases this
  · intro hs hm
    rw [hown] at hm
    exact List.mem_append_left _ (h.own hs hm)
  · intro hans
    refine Always.appendSplit (h.order (Always.prefix hans)) ?_
    intro a x b hx e hh _ hs
    have : x = .inp (.exit pid) := by
      cases a with
      | nil => simp at hx; exact hx.1.symm
      | cons _ _ => simp at hx
    subst this
    exact hs.elim

/-- The answer to a preparation that was asked for. -/
theorem DGood.prepared {pre : List Batch} {l : List Item} {c : Core} (h : DGood bs m U L0 pre l c) (hs : List Handle)
    (ho : Answers l → .prepare hs ∈ l ∨ .prepareOwn hs ∈ l) :
    ∃ ext, DGood bs m U L0 pre (l ++ ext) (c.prepared hs) := by
  refine ⟨_, h.ext rfl rfl rfl (fun _ h => Or.inl h) ?_ ?_⟩
  · intro p hp
    obtain ⟨x, _, hx⟩ := List.mem_map.1 hp
    split at hx <;> cases hx
  · intro hans a x b hx e hh hu hst e' hh' hu' hearly
    have hans' := Always.prefix hans
    have hxm : x ∈ hs.map fun h => if h.ipc ≠ 0 then Item.shutdownReq h else .terminate h.pid := by rw [hx]; simp
    obtain ⟨y, hy, hyx⟩ := List.mem_map.1 hxm
    have hpid : y.pid = hh.pid := by
      rw [← hyx] at hst
      split at hst <;> exact hst
    have main : ∀ q : Item, q ∈ l → q.stops hh.pid → .inp (.exit hh'.pid) ∈ l ++ a := by
      intro q hq hqs
      obtain ⟨l1, l2, hl⟩ := List.append_of_mem hq
      have h1 := h.order hans' l1 q l2 hl e hh hu hqs e' hh' hu' hearly
      rw [hl]
      simp [h1]
    rcases ho hans' with h1 | h1
    · exact main _ h1 ⟨y, hy, hpid⟩
    · exact main _ h1 ⟨y, hy, hpid⟩

theorem lookup_mild (c : Core) (lk : Lookup) : ∃ ext, (c.lookup lk).log = c.log ++ ext ∧
    ∀ i ∈ ext, i.still = true ∧ ∀ p, ¬ i.stops p := by
  have key : ∀ items, c.answer lk = some items → ∀ i ∈ items, i.still = true ∧ ∀ p, ¬ i.stops p := by
    intro items ha i hi
    unfold Core.answer at ha
    split at ha
    · split at ha
      · cases ha; simp at hi; subst hi; exact ⟨rfl, fun _ h => h⟩
      · split at ha
        · cases ha; simp at hi; subst hi; exact ⟨rfl, fun _ h => h⟩
        · cases ha
    · split at ha
      · dsimp only at ha
        split at ha
        · cases ha; simp at hi; subst hi; exact ⟨rfl, fun _ h => h⟩
        · cases ha
      · cases ha; simp at hi
  unfold Core.lookup
  split
  · rename_i items ha
    exact ⟨items, rfl, key items ha⟩
  · exact ⟨[], by simp, by simp⟩

/-- The shutdown is going on, or is over. -/
def Downing (bs : List Batch) (m : EId) (U : EId → Handle → Prop) (L0 : List Item) (s : State) : Prop :=
  Conf bs (.event 0) (DRun bs m U L0) (DOver bs U L0) [] s.conts s.st

theorem Downing.over_stopped {s : State} (h : DOver bs U L0 s.st) (hc : s.conts = []) : s.stopped = true := by
  unfold State.stopped
  rw [hc]
  simp only [List.isEmpty_nil, Bool.and_true, decide_eq_true_eq]
  exact h.1

theorem downing_input {lib : Lib} (ha : Apart bs) (kn : Known m U) (hbm : ∀ b ∈ bs, ∀ e ∈ b.members, e ≠ m) {s : State}
    (i : Input) (hi : i.patient = true) (h : Downing bs m U L0 s) : Downing bs m U L0 (s.input lib i) := by
  have k := down_seq (L0 := L0) (lib := lib) ha kn hbm
  cases hst : s.stopped with
  | true => rw [input_stopped lib s i hst]; exact h
  | false =>
    rcases h with ⟨h, hc⟩ | ⟨pre, b, post, g, gs, h1, h2, h3, h4, ⟨hn, l, h5, hask⟩, h6⟩
    · have := Downing.over_stopped h (hc rfl)
      rw [hst] at this
      cases this
    · have e0 : s.input lib i = (s.on fun c => c.say [.inp i]).handle lib i := by
        unfold State.input; rw [hst]; rfl
      -- nothing but the log
      have still : ∀ (s' : State) (ext : List Item), s'.conts = s.conts → s'.st.entities = s.st.entities →
          DGood bs m U L0 pre (l ++ ext) s'.st → Downing bs m U L0 s' := by
        intro s' ext e1 e2 hg
        exact Or.inr ⟨pre, b, post, g, gs, h1, by rw [e1]; exact h2, h3, h4,
          ⟨by rw [e2]; exact hn, _, hg, Asked.ext hask e2⟩, by rw [settled_congr e2]; exact h6⟩
      have msg : ∀ (s' : State) (mm : Msg), s'.conts = s.conts → DRun bs m U L0 pre b s'.st →
          Downing bs m U L0 (s'.tasks lib mm) := by
        intro s' mm e1 hg
        exact conf_tasks k mm h1 (e1.trans h2) h3 h4 hg
      have hin : (∀ p, i ≠ .exit p) → DGood bs m U L0 pre (l ++ [.inp i]) (s.st.say [.inp i]) := by
        intro hne
        refine h5.mild rfl rfl rfl (fun _ h => h) ?_
        intro x hx
        have : x = .inp i := by simpa using hx
        subst this
        refine ⟨?_, fun _ h => h⟩
        cases i <;> try rfl
        exact absurd rfl (hne _)
      have hlev : Runlevel.running.toNat < s.st.runlevel.toNat := h5.level
      rw [e0]
      cases i with
      | own =>
        have hs1 := hin (by simp)
        dsimp only [State.handle]
        unfold State.own
        split
        · exact still _ _ rfl rfl hs1
        · rename_i mm ms hown
          have hown' : s.st.own = mm :: ms := hown
          have hs2 : DGood bs m U L0 pre (l ++ [.inp .own]) ({ s.st.say [.inp .own] with own := ms } : Core) :=
            ⟨hs1.level, hs1.once, hs1.log, hs1.all, hs1.track, hs1.clear, fun hs hm => hs1.own hs (by
              show _ ∈ s.st.own
              rw [hown']; exact List.mem_cons_of_mem _ hm), hs1.order⟩
          dsimp only
          split
          · exact msg _ _ rfl ⟨hn, _, hs2, Asked.ext hask rfl⟩
          · rename_i hs
            have hpo : .prepareOwn hs ∈ l := h5.own hs (by rw [hown']; exact List.mem_cons_self)
            obtain ⟨ext, h7⟩ := hs2.prepared hs (fun _ => Or.inr (List.mem_append_left _ hpo))
            rw [List.append_assoc] at h7
            exact still _ _ rfl rfl h7
      | exit pid =>
        dsimp only [State.handle]
        split
        · rename_i hz
          subst hz
          refine still _ [.inp (.exit 0)] rfl rfl ?_
          refine ⟨h5.level, h5.once, by show s.st.log ++ _ = _; rw [h5.log, List.append_assoc], ?_, ?_, h5.clear,
            fun hs hm => List.mem_append_left _ (h5.own hs hm), ?_⟩
          · intro x hx hm i hi
            obtain ⟨q1, q2, q3⟩ := h5.all x hx hm i hi
            refine ⟨q1, q2, ?_⟩
            simp only [List.mem_append, List.mem_singleton, Item.inp.injEq, Input.exit.injEq, not_or]
            exact ⟨q3, (kn.up q2).1⟩
          · intro e hh hu
            exact (h5.track e hh hu).imp (List.mem_append_left _) (fun h => h)
          · intro hans
            refine Always.appendSplit (h5.order (Always.prefix hans)) ?_
            intro a x b hx e hh _ hs
            have : x = .inp (.exit 0) := by
              cases a with
              | nil => simp at hx; exact hx.1.symm
              | cons _ _ => simp at hx
            subst this
            exact hs.elim
        · rename_i hp
          obtain ⟨q1, q2, q3, q4⟩ := h5.exit hp
          unfold State.exit
          dsimp only [State.on]
          rw [q1]
          refine msg _ _ rfl ⟨by rw [q2]; exact hn, _, q4, ?_⟩
          intro e he x hx hid i hi
          have hxm : x.id ≠ m := by rw [hid]; exact hbm b (by rw [h1]; simp) e he
          obtain ⟨y, hy, hyid, hsub⟩ := q3 x hx hxm
          obtain ⟨a, q5, q6⟩ := hask e he y hy (hyid.trans hid) i (hsub i hi)
          exact ⟨a, List.mem_append_left _ q5, q6⟩
      | connect hh x w =>
        have hs1 := hin (by simp)
        dsimp only [State.handle]
        split
        · unfold State.connect
          rw [if_pos (show Runlevel.running.toNat < (s.on fun c => c.say [.inp (.connect hh x w)]).st.runlevel.toNat from hlev)]
          have := hs1.mild (ext := [.denied hh x]) (c' := (s.st.say [.inp (.connect hh x w)]).say [.denied hh x]) rfl rfl rfl
            (fun _ h => h) (by simp [Item.still, Item.stops])
          rw [List.append_assoc] at this
          exact still _ _ rfl rfl this
        · exact still _ _ rfl rfl hs1
      | prepareReply hs =>
        have hs1 := hin (by simp)
        obtain ⟨ext, h7⟩ := hs1.prepared hs (by
          intro hans
          exact Or.inl (List.mem_append_left _ (hans l (.inp (.prepareReply hs)) [] rfl hs rfl)))
        rw [List.append_assoc] at h7
        exact still _ _ rfl rfl h7
      | lookup lk =>
        have hs1 := hin (by simp)
        obtain ⟨ext, q1, q2⟩ := lookup_mild (s.st.say [.inp (.lookup lk)]) lk
        have q3 : ∀ c : Core, (c.lookup lk).entities = c.entities ∧ (c.lookup lk).runlevel = c.runlevel ∧ (c.lookup lk).own = c.own := by
          intro c; unfold Core.lookup; split <;> exact ⟨rfl, rfl, rfl⟩
        have := hs1.mild (c' := (s.st.say [.inp (.lookup lk)]).lookup lk) (q3 _).1 (q3 _).2.1 q1 (fun hs hm => by
          rw [(q3 _).2.2] at hm; exact hm) q2
        rw [List.append_assoc] at this
        exact still _ _ rfl (q3 _).1 this
      | scale as => cases hi
      | restartAliases as => cases hi
      | restartGroups as => cases hi
      | shutdown => cases hi
      | fatal =>
        have hs1 := hin (by simp)
        dsimp only [State.handle]
        rw [if_neg (show ¬ (s.on fun c => c.say [.inp .fatal]).st.runlevel = .startup from fun hc => by
          have h7 : s.st.runlevel = .startup := hc
          rw [h7] at hlev
          exact absurd hlev (by decide))]
        exact still _ _ rfl rfl hs1
      | assassinate t ct =>
        have hs1 := hin (by simp)
        dsimp only [State.handle]
        have q : ∃ ext, ((s.st.say [.inp (.assassinate t ct)]).assassinate t ct).log = (s.st.say [.inp (.assassinate t ct)]).log ++ ext ∧
            (∀ i ∈ ext, i.still = true ∧ ∀ p, ¬ i.stops p) := by
          unfold Core.assassinate
          split
          · exact ⟨[], by simp, by simp⟩
          · split
            · exact ⟨[], by simp, by simp⟩
            · exact ⟨[.signal t ct], rfl, by simp [Item.still, Item.stops]⟩
        have q3 : ∀ c : Core, (c.assassinate t ct).entities = c.entities ∧ (c.assassinate t ct).runlevel = c.runlevel ∧
            (c.assassinate t ct).own = c.own := by
          intro c; unfold Core.assassinate; split
          · exact ⟨rfl, rfl, rfl⟩
          · split <;> exact ⟨rfl, rfl, rfl⟩
        obtain ⟨ext, q1, q2⟩ := q
        have := hs1.mild (c' := (s.st.say [.inp (.assassinate t ct)]).assassinate t ct) (q3 _).1 (q3 _).2.1 q1 (fun hs hm => by
          rw [(q3 _).2.2] at hm; exact hm) q2
        rw [List.append_assoc] at this
        exact still _ _ rfl (q3 _).1 this

theorem downing_run {lib : Lib} (ha : Apart bs) (kn : Known m U) (hbm : ∀ b ∈ bs, ∀ e ∈ b.members, e ≠ m) :
    ∀ (is : List Input) (s : State), (∀ i ∈ is, i.patient = true) → Downing bs m U L0 s → Downing bs m U L0 (s.run lib is)
  | [], _, _, h => h
  | i :: is, _, hc, h =>
    downing_run ha kn hbm is _ (fun j hj => hc j (List.mem_cons_of_mem _ hj))
      (downing_input ha kn hbm i (hc i List.mem_cons_self) h)

end

/-! ### The start of a shutdown -/

/-- The processes that are up, without the domain manager itself. -/
def UpAt (c : Core) (e : EId) (h : Handle) : Prop := e ≠ c.manager ∧ Up c e h

theorem known_up {c : Core} (ho : ∀ p, p ≠ 0 → occ c.entities p ≤ 1) : Known c.manager (UpAt c) where
  up := fun h => ⟨h.2.2.1, h.2.2.2⟩
  notMe := fun h => h.1
  one := by
    rintro e h e' h' ⟨_, ⟨x, hx, rfl, i, hi, rfl⟩, hp, _⟩ ⟨_, ⟨y, hy, rfl, j, hj, rfl⟩, _⟩ he
    rw [occ_unique (ho _ hp) hx hy (count_pos.2 ⟨i, hi, rfl⟩) (count_pos.2 ⟨j, hj, he.symm⟩)]

theorem scale_memberships (e : Entity) (n : Nat) : (e.scale n).memberships = e.memberships := by
  unfold Entity.scale; dsimp only; split <;> rfl

theorem apart_stop {lib : Lib} (hs : StableSort lib.sort) {c : Core} (hn : (c.entities.map (·.id)).Nodup) :
    Apart (c.stopOrder lib) ∧ ∀ b ∈ c.stopOrder lib, ∀ e ∈ b.members, e ≠ c.manager := by
  have hp := shutdown_each_once hs c.groups c.members c.manager
  constructor
  · unfold Apart Core.stopOrder
    refine hp.nodup_iff.2 ?_
    refine List.Nodup.sublist (List.Sublist.map _ List.filter_sublist) ?_
    simpa [Core.members, List.map_map, Function.comp_def] using hn
  · intro b hb e he
    have h1 : e ∈ (c.stopOrder lib).flatMap (·.members) := List.mem_flatMap.2 ⟨b, hb, he⟩
    obtain ⟨x, hx, rfl⟩ := List.mem_map.1 (hp.mem_iff.1 h1)
    have := (List.mem_filter.1 hx).2
    simp only [Bool.and_eq_true, decide_eq_true_eq] at this
    exact this.1

theorem start_downing {lib : Lib} (hs : StableSort lib.sort) {s : State} (hc : s.conts = []) (how : s.st.own = [])
    (hn : (s.st.entities.map (·.id)).Nodup) (ho : ∀ p, p ≠ 0 → occ s.st.entities p ≤ 1) (hst : s.stopped = false) :
    Downing (s.st.stopOrder lib) s.st.manager (UpAt s.st) (s.st.log ++ [.inp .shutdown]) (s.input lib .shutdown) := by
  have e0 : s.input lib .shutdown = (s.on fun c => c.say [.inp .shutdown]).handle lib .shutdown := by
    unfold State.input; rw [hst]; rfl
  rw [e0]
  dsimp only [State.handle]
  unfold State.shutdown
  dsimp only
  obtain ⟨h1, h2⟩ := apart_stop hs hn (lib := lib) (c := s.st)
  have key : ∀ s' : State, s'.conts = [] → s'.st.groups = s.st.groups → s'.st.manager = s.st.manager →
      s'.st.members = s.st.members → DWait (s.st.stopOrder lib) s.st.manager (UpAt s.st) (s.st.log ++ [.inp .shutdown]) [] s'.st →
      Downing (s.st.stopOrder lib) s.st.manager (UpAt s.st) (s.st.log ++ [.inp .shutdown])
        (s'.thenAll lib (scaleGroups (shutdownOrder lib.sort s'.st.groups s'.st.members s'.st.manager) ++ [[(.event 0, .idle)]])) := by
    intro s' q1 q2 q3 q4 q5
    rw [q2, q3, q4]
    exact conf_start (down_seq (lib := lib) (L0 := s.st.log ++ [.inp .shutdown]) h1 (known_up ho) h2) q1 q5
  refine key _ ?_ rfl rfl ?_ ?_
  · dsimp only [State.on, Coord.step]
    rw [hc]; rfl
  · dsimp only [State.on, Coord.step, Core.say]
    unfold Core.members
    dsimp only
    rw [List.map_map]
    refine List.map_congr_left ?_
    intro e _
    dsimp only [Function.comp]
    split
    · rfl
    · rw [scale_id, scale_memberships]
  · dsimp only [State.on, Coord.step]
    refine ⟨?_, [], ?_, ?_, by simp [Core.say], ?_, ?_, by simp, ?_, fun _ => Always.nil _⟩
    · dsimp only
      rw [List.map_map]
      refine (List.map_congr_left ?_ : _ = s.st.entities.map (·.id)) ▸ hn
      intro e _
      dsimp only [Function.comp]
      split
      · rfl
      · exact scale_id e 0
    · exact raise_ge s.st.runlevel .shutdown
    · intro p hp
      dsimp only
      refine Nat.le_trans (occ_map _ ?_) (ho p hp)
      intro e _
      split
      · exact Nat.le_refl _
      · exact count_scale e 0 hp
    · intro x hx hm i hi
      dsimp only at hx
      obtain ⟨e, he, rfl⟩ := List.mem_map.1 hx
      split at hm
      · rename_i hc; exact absurd hc hm
      · rename_i hc
        rw [if_neg hc] at hi ⊢
        obtain ⟨j, hj, rfl, hup⟩ := (scale_zero e).1 hi
        refine ⟨rfl, ?_, by simp⟩
        rw [scale_id]
        exact ⟨hc, ⟨e, he, rfl, j, hj, rfl⟩, hup.1, hup.2⟩
    · rintro e hh ⟨hm, ⟨x, hx, rfl, i, hi, rfl⟩, hp, hs⟩
      right
      refine ⟨x.scale 0, ?_, scale_id x 0, { i with wanted := .exit }, (scale_zero x).2 ⟨i, hi, rfl, hp, hs⟩, rfl⟩
      exact List.mem_map.2 ⟨x, hx, by rw [if_neg (show ¬ x.id = (s.st.say [.inp .shutdown]).manager from hm)]⟩
    · intro hs hm
      have : (.prepareReply hs : Own) ∈ s.st.own := hm
      rw [how] at this
      cases this

end Casual.DManager
