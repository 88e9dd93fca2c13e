import Verif.DManager.ConnectSpec
import Verif.DManager.Frame

/-! The invariant behind connects, singletons, lookups and assassinations. -/
namespace Casual.DManager

open Casual.Task

/-! ### Logs -/

theorem Always.nil (P : List Item → Item → Prop) : Always P [] := by
  intro l1 a l2 h; simp at h

theorem Always.snoc {P : List Item → Item → Prop} {log : List Item} {a : Item} (h : Always P log) (ha : P log a) :
    Always P (log ++ [a]) := by
  intro l1 b l2 he
  rcases List.eq_nil_or_concat l2 with rfl | ⟨l2', c, rfl⟩
  · have := List.append_inj' he rfl
    obtain ⟨rfl, h2⟩ := this
    cases h2; exact ha
  · rw [List.concat_eq_append, ← List.cons_append, ← List.append_assoc] at he
    have := List.append_inj' he rfl
    exact h l1 b l2' this.1

theorem Always.append {P : List Item → Item → Prop} : ∀ (ext : List Item) {log : List Item}, Always P log →
    (∀ i ∈ ext, ∀ l, P l i) → Always P (log ++ ext)
  | [], log, h, _ => by simpa using h
  | a :: ext, log, h, he => by
    have := Always.append ext (h.snoc (he a List.mem_cons_self log)) (fun i hi => he i (List.mem_cons_of_mem _ hi))
    simpa using this

theorem Always.prefix {P : List Item → Item → Prop} {log ext : List Item} (h : Always P (log ++ ext)) : Always P log := by
  intro l1 a l2 he
  exact h l1 a (l2 ++ ext) (by rw [he]; simp)

theorem Live.snoc {log : List Item} {a : Item} {h : Handle} {x : Ident} (hl : Live (log ++ [a]) h x) :
    (Live log h x ∧ a ≠ .inp (.exit h.pid)) ∨ ∃ w, a = .admitted h x w := by
  obtain ⟨l1, l2, w, he, hn⟩ := hl
  rcases List.eq_nil_or_concat l2 with rfl | ⟨l2', c, rfl⟩
  · have := List.append_inj' he rfl
    obtain ⟨_, h2⟩ := this
    cases h2; exact Or.inr ⟨w, rfl⟩
  · rw [List.concat_eq_append, ← List.cons_append, ← List.append_assoc] at he
    have := List.append_inj' he rfl
    obtain ⟨h1, h2⟩ := this
    cases h2
    simp at hn
    exact Or.inl ⟨⟨l1, l2', w, h1, hn.1⟩, fun e => hn.2 e.symm⟩

theorem Live.keep {log : List Item} {a : Item} {h : Handle} {x : Ident} (hl : Live log h x)
    (ha : a ≠ .inp (.exit h.pid)) : Live (log ++ [a]) h x := by
  obtain ⟨l1, l2, w, he, hn⟩ := hl
  refine ⟨l1, l2 ++ [a], w, by rw [he]; simp, ?_⟩
  simp only [List.mem_append, List.mem_singleton, not_or]
  exact ⟨hn, fun e => ha e.symm⟩

theorem Live.new {log : List Item} {h : Handle} {x : Ident} {w : Bool} : Live (log ++ [.admitted h x w]) h x :=
  ⟨log, [], w, rfl, by simp⟩

theorem Spared.snoc {log : List Item} {a : Item} {pid : Pid} (hl : Spared (log ++ [a]) pid) :
    (Spared log pid ∧ a ≠ .inp (.exit pid)) ∨ ∃ h x, a = .admitted h x true ∧ h.pid = pid := by
  obtain ⟨l1, l2, h, x, he, hp, hn⟩ := hl
  rcases List.eq_nil_or_concat l2 with rfl | ⟨l2', c, rfl⟩
  · have := List.append_inj' he rfl
    obtain ⟨_, h2⟩ := this
    cases h2; exact Or.inr ⟨h, x, rfl, hp⟩
  · rw [List.concat_eq_append, ← List.cons_append, ← List.append_assoc] at he
    have := List.append_inj' he rfl
    obtain ⟨h1, h2⟩ := this
    cases h2
    simp at hn
    exact Or.inl ⟨⟨l1, l2', h, x, h1, hp, hn.1⟩, fun e => hn.2 e.symm⟩

/-- What is true of every item. -/
def Fine (pm : Pid) (before : List Item) : Item → Prop
  | .signal pid _ => ¬ Spared before pid ∧ (pid = pm → .inp (.exit pid) ∈ before)
  | .admitted h x _ => h.ok = true ∧ .inp .shutdown ∉ before ∧ (x ≠ 0 → ∀ h', ¬ Live before h' x)
  | .lookupReply l h =>
    (l.ident ≠ 0 →
      (h = {} ∧ (l.direct = true ∨ Closing before) ∧ ∀ h', ¬ Live before h' l.ident) ∨
        ((∃ w, .admitted h l.ident w ∈ before) ∧ (OncePerLife before → Live before h l.ident))) ∧
    (l.ident = 0 → h.ok = false → l.direct = true ∨ Closing before)
  | _ => True

/-- Items nothing is said of. -/
def Item.plain : Item → Bool
  | .signal .. | .admitted .. | .lookupReply .. | .inp _ => false
  | _ => true

theorem plain_of_task {i : Item} (h : i.ofTask = true) : i.plain = true := by
  cases i <;> simp_all [Item.ofTask, Item.plain]

theorem fine_plain {pm : Pid} {i : Item} (h : i.plain = true) (l : List Item) : Fine pm l i := by
  cases i <;> simp_all [Item.plain, Fine]

/-- The invariant. -/
structure CInv (pm : Pid) (c : Core) : Prop where
  fine : Always (Fine pm) c.log
  live : ∀ h x, x ≠ 0 → Live c.log h x → (x, h) ∈ c.singletons
  single : ∀ p ∈ c.singletons, p.1 ≠ 0 ∧ ∃ w, Item.admitted p.2 p.1 w ∈ c.log
  keys : (c.singletons.map (·.1)).Nodup
  once : OncePerLife c.log → (c.singletons.map (·.2.pid)).Nodup ∧ ∀ p ∈ c.singletons, Live c.log p.2 p.1
  spared : ∀ pid, Spared c.log pid → pid ∈ c.whitelisted
  me : .inp (.exit pm) ∉ c.log → pm ∈ c.whitelisted
  closing : 1 < c.runlevel.toNat → Closing c.log
  closed : .inp .shutdown ∈ c.log → 1 < c.runlevel.toNat
  waits : ∀ l ∈ c.lookups, l.valid
  atMost : ∀ l, c.log.countP (Item.answers l) + c.lookups.count l ≤ c.log.count (.inp (.lookup l))
  atLeast : ∀ l, l.valid → .inp (.exit l.requester.pid) ∉ c.log →
    c.log.count (.inp (.lookup l)) ≤ c.log.countP (Item.answers l) + c.lookups.count l

/-- No lookup waits for a singleton that is there. -/
def Quiet (c : Core) : Prop := ∀ l ∈ c.lookups, l.ident ≠ 0 → ∀ h, (l.ident, h) ∉ c.singletons

theorem plain_ne_exit {i : Item} (h : i.plain = true) (j : Input) : i ≠ .inp j := by
  rintro rfl; simp [Item.plain] at h

theorem plain_answers {i : Item} (h : i.plain = true) (l : Lookup) : i.answers l = false := by
  cases i <;> simp_all [Item.plain, Item.answers]

theorem OncePerLife.append_plain {log : List Item} {i : Item} (h : i.plain = true) :
    OncePerLife log → OncePerLife (log ++ [i]) := by
  intro ho
  refine ho.snoc ?_
  cases i <;> simp_all [Item.plain]

/-- An item nothing is said of. -/
theorem CInv.sayPlain {pm : Pid} {c : Core} (h : CInv pm c) {i : Item} (hi : i.plain = true) : CInv pm (c.say [i]) where
  fine := h.fine.snoc (fine_plain hi _)
  live := by
    intro a x hx hl
    rcases hl.snoc with ⟨hl, _⟩ | ⟨w, rfl⟩
    · exact h.live a x hx hl
    · simp [Item.plain] at hi
  single := fun p hp => ⟨(h.single p hp).1, (h.single p hp).2.imp fun w hw => List.mem_append_left _ hw⟩
  keys := h.keys
  once := by
    intro ho
    have := h.once ho.prefix
    exact ⟨this.1, fun p hp => (this.2 p hp).keep (plain_ne_exit hi _)⟩
  spared := by
    intro pid hs
    rcases hs.snoc with ⟨hs, _⟩ | ⟨a, x, rfl, _⟩
    · exact h.spared pid hs
    · simp [Item.plain] at hi
  me := fun hm => h.me (fun hc => hm (List.mem_append_left _ hc))
  closing := fun hl => (h.closing hl).imp (List.mem_append_left _) (List.mem_append_left _)
  closed := by
    intro hm
    rcases List.mem_append.1 hm with hm | hm
    · exact h.closed hm
    · simp at hm; exact absurd hm.symm (plain_ne_exit hi _)
  waits := h.waits
  atMost := by
    intro l
    simp only [Core.say, List.countP_append, List.count_append]
    rw [List.countP_singleton, plain_answers hi, List.count_singleton]
    have := h.atMost l
    have hb : (i == Item.inp (.lookup l)) = false := by simpa using plain_ne_exit hi _
    rw [hb]; simpa using this
  atLeast := by
    intro l hv hn
    simp only [Core.say, List.countP_append, List.count_append]
    rw [List.countP_singleton, plain_answers hi, List.count_singleton]
    have := h.atLeast l hv (fun hc => hn (List.mem_append_left _ hc))
    have hb : (i == Item.inp (.lookup l)) = false := by simpa using plain_ne_exit hi _
    rw [hb]; simpa using this

theorem say_say (c : Core) (a b : List Item) : (c.say a).say b = c.say (a ++ b) := by
  simp [Core.say]

theorem CInv.sayPlains {pm : Pid} : ∀ (items : List Item) {c : Core}, CInv pm c → (∀ i ∈ items, i.plain = true) →
    CInv pm (c.say items)
  | [], c, h, _ => by simpa [Core.say] using h
  | i :: is, c, h, hp => by
    have := CInv.sayPlains is (h.sayPlain (hp i List.mem_cons_self)) (fun j hj => hp j (List.mem_cons_of_mem _ hj))
    rw [say_say] at this
    exact this

/-- Only these fields matter. -/
theorem CInv.congr {pm : Pid} {c c' : Core} (h : CInv pm c) (h1 : c'.log = c.log) (h2 : c'.singletons = c.singletons)
    (h3 : c'.whitelisted = c.whitelisted) (h4 : c'.lookups = c.lookups) (h5 : c.runlevel.toNat ≤ c'.runlevel.toNat)
    (h6 : 1 < c'.runlevel.toNat → Closing c'.log) : CInv pm c' where
  fine := by rw [h1]; exact h.fine
  live := by rw [h1, h2]; exact h.live
  single := by rw [h1, h2]; exact h.single
  keys := by rw [h2]; exact h.keys
  once := by rw [h1, h2]; exact h.once
  spared := by rw [h1, h3]; exact h.spared
  me := by rw [h1, h3]; exact h.me
  closing := h6
  closed := fun hm => Nat.lt_of_lt_of_le (h.closed (h1 ▸ hm)) h5
  waits := by rw [h4]; exact h.waits
  atMost := by rw [h1, h4]; exact h.atMost
  atLeast := by rw [h1, h4]; exact h.atLeast

theorem CInv.frame {pm : Pid} {c c' : Core} (h : CInv pm c) (f : Frame c c')
    (hc : 1 < c'.runlevel.toNat → Closing c.log) : CInv pm c' := by
  obtain ⟨ext, he, hp⟩ := f.log
  have h1 := CInv.sayPlains ext h (fun i hi => plain_of_task (hp i hi))
  refine h1.congr he f.singletons f.whitelisted f.lookups f.level ?_
  intro hl
  rw [he]
  exact (hc hl).imp (List.mem_append_left _) (List.mem_append_left _)

/-! ### The parts of the handlers -/

/-- Items that change nothing for the others. -/
def Item.neutral : Item → Bool
  | .lookupReply .. => true
  | i => i.plain

theorem Live.neutral {h : Handle} {x : Ident} : ∀ (ext log : List Item), (∀ i ∈ ext, i.neutral = true) →
    (Live (log ++ ext) h x ↔ Live log h x)
  | [], log, _ => by simp
  | i :: is, log, hn => by
    have ih := Live.neutral (h := h) (x := x) is (log ++ [i]) (fun j hj => hn j (List.mem_cons_of_mem _ hj))
    rw [List.append_assoc, List.singleton_append] at ih
    rw [ih]
    have hi := hn i List.mem_cons_self
    constructor
    · intro hl
      rcases hl.snoc with ⟨hl, _⟩ | ⟨w, rfl⟩
      · exact hl
      · simp [Item.neutral, Item.plain] at hi
    · intro hl
      refine hl.keep ?_
      rintro rfl; simp [Item.neutral, Item.plain] at hi

theorem Spared.neutral {pid : Pid} : ∀ (ext log : List Item), (∀ i ∈ ext, i.neutral = true) →
    Spared (log ++ ext) pid → Spared log pid
  | [], log, _ => by simp
  | i :: is, log, hn => by
    intro hs
    have ih := Spared.neutral (pid := pid) is (log ++ [i]) (fun j hj => hn j (List.mem_cons_of_mem _ hj))
    rw [List.append_assoc, List.singleton_append] at ih
    have hi := hn i List.mem_cons_self
    rcases (ih hs).snoc with ⟨h, _⟩ | ⟨h, x, rfl, _⟩
    · exact h
    · simp [Item.neutral, Item.plain] at hi

theorem neutral_ne_inp {i : Item} (h : i.neutral = true) (j : Input) : i ≠ .inp j := by
  rintro rfl; simp [Item.neutral, Item.plain] at h

theorem count_inp_neutral {ext : List Item} (hn : ∀ i ∈ ext, i.neutral = true) (j : Input) : ext.count (.inp j) = 0 := by
  rw [List.count_eq_zero]
  intro hm
  exact neutral_ne_inp (hn _ hm) j rfl

/-- Neutral items, and another set of pending lookups. -/
theorem CInv.sayNeutral {pm : Pid} {c : Core} (h : CInv pm c) {items : List Item} {ls : List Lookup}
    (hn : ∀ i ∈ items, i.neutral = true) (hf : Always (Fine pm) (c.log ++ items))
    (hv : ∀ l ∈ ls, l.valid)
    (hc : ∀ l, items.countP (Item.answers l) + ls.count l = c.lookups.count l) :
    CInv pm ({ c with lookups := ls }.say items) where
  fine := hf
  live := fun a x hx hl => h.live a x hx ((Live.neutral items c.log hn).1 hl)
  single := fun p hp => ⟨(h.single p hp).1, (h.single p hp).2.imp fun w hw => List.mem_append_left _ hw⟩
  keys := h.keys
  once := by
    intro ho
    have := h.once ho.prefix
    exact ⟨this.1, fun p hp => (Live.neutral items c.log hn).2 (this.2 p hp)⟩
  spared := fun pid hs => h.spared pid (Spared.neutral items c.log hn hs)
  me := fun hm => h.me (fun hc => hm (List.mem_append_left _ hc))
  closing := fun hl => (h.closing hl).imp (List.mem_append_left _) (List.mem_append_left _)
  closed := by
    intro hm
    rcases List.mem_append.1 hm with hm | hm
    · exact h.closed hm
    · exact absurd rfl (neutral_ne_inp (hn _ hm) _)
  waits := hv
  atMost := by
    intro l
    simp only [Core.say, List.countP_append, List.count_append, count_inp_neutral hn]
    have := h.atMost l
    have := hc l
    omega
  atLeast := by
    intro l hv hx
    simp only [Core.say, List.countP_append, List.count_append, count_inp_neutral hn]
    have := h.atLeast l hv (fun hc => hx (List.mem_append_left _ hc))
    have := hc l
    omega

theorem lookup_some_mem {x : Ident} : ∀ {l : List (Ident × Handle)} {h : Handle}, l.lookup x = some h → (x, h) ∈ l
  | [], _, h => by simp at h
  | (y, a) :: l, h, he => by
    rw [List.lookup_cons] at he
    split at he
    · rename_i hxy
      simp at hxy he; subst hxy; subst he; exact List.mem_cons_self
    · exact List.mem_cons_of_mem _ (lookup_some_mem he)

theorem lookup_none_mem {x : Ident} : ∀ {l : List (Ident × Handle)}, l.lookup x = none → ∀ h, (x, h) ∉ l
  | [], _, h => by simp
  | (y, a) :: l, he, h => by
    rw [List.lookup_cons] at he
    split at he
    · cases he
    · rename_i hxy
      simp at hxy
      intro hm
      rcases List.mem_cons.1 hm with hm | hm
      · cases hm; exact hxy rfl
      · exact lookup_none_mem he h hm

theorem direct_of {pm : Pid} {c : Core} (h : CInv pm c) {l : Lookup} (hr : c.replyDirect l = true) :
    l.direct = true ∨ Closing c.log := by
  unfold Core.replyDirect at hr
  rw [Bool.or_eq_true] at hr
  rcases hr with hr | hr
  · exact Or.inl hr
  · exact Or.inr (h.closing (of_decide_eq_true hr))

/-- What is answered is fine. -/
theorem answer_fine {pm : Pid} {c : Core} (h : CInv pm c) {l : Lookup} {items : List Item} (ha : c.answer l = some items)
    {R : List Item} (hR : ∀ i ∈ R, i.neutral = true) : ∀ i ∈ items, Fine pm (c.log ++ R) i := by
  have live : ∀ {a x}, Live (c.log ++ R) a x ↔ Live c.log a x := fun {a x} => Live.neutral R c.log hR
  have clo : l.direct = true ∨ Closing c.log → l.direct = true ∨ Closing (c.log ++ R) :=
    fun hd => hd.imp_right fun hc => hc.imp (List.mem_append_left _) (List.mem_append_left _)
  unfold Core.answer at ha
  split at ha
  · rename_i hid
    split at ha
    · rename_i a hs
      cases ha
      intro i hi
      simp at hi; subst hi
      have hm := lookup_some_mem hs
      refine ⟨fun _ => Or.inr ⟨?_, ?_⟩, fun h0 => absurd h0 hid⟩
      · exact (h.single _ hm).2.imp fun w hw => List.mem_append_left _ hw
      · intro ho
        exact live.2 ((h.once ho.prefix).2 _ hm)
    · rename_i hs
      split at ha
      · rename_i hr
        cases ha
        intro i hi
        simp at hi; subst hi
        refine ⟨fun _ => Or.inl ⟨rfl, clo (direct_of h hr), ?_⟩, fun h0 => absurd h0 hid⟩
        intro a hl
        exact lookup_none_mem hs a (h.live a _ hid (live.1 hl))
      · cases ha
  · rename_i hid
    split at ha
    · dsimp only at ha
      split at ha
      · rename_i hr
        cases ha
        intro i hi
        simp at hi; subst hi
        refine ⟨fun h0 => absurd h0 (by simpa using hid), fun _ hok => clo ?_⟩
        rw [hok, Bool.false_or] at hr
        exact direct_of h hr
      · cases ha
    · cases ha
      intro i hi; simp at hi

/-- The answer to what asks for something is one reply. -/
theorem answer_one {c : Core} {l : Lookup} {items : List Item} (hv : l.valid) (ha : c.answer l = some items) :
    ∃ h, items = [.lookupReply l h] := by
  unfold Core.answer at ha
  split at ha
  · split at ha
    · cases ha; exact ⟨_, rfl⟩
    · split at ha
      · cases ha; exact ⟨_, rfl⟩
      · cases ha
  · rename_i hid
    split at ha
    · dsimp only at ha
      split at ha
      · cases ha; exact ⟨_, rfl⟩
      · cases ha
    · rename_i hp
      rcases hv with hv | hv
      · exact absurd hv hid
      · exact absurd hv hp

theorem retry_counts (c : Core) (l : Lookup) : ∀ ls : List Lookup, (∀ k ∈ ls, k.valid) →
    (ls.flatMap fun k => (c.answer k).getD []).countP (Item.answers l) +
      (ls.filter fun k => (c.answer k).isNone).count l = ls.count l
  | [], _ => rfl
  | k :: ls, hv => by
    have ih := retry_counts c l ls (fun j hj => hv j (List.mem_cons_of_mem _ hj))
    rw [List.flatMap_cons, List.countP_append, List.filter_cons, List.count_cons]
    cases ha : c.answer k with
    | none =>
      simp only [Option.getD_none, List.countP_nil, Option.isNone_none, if_true, List.count_cons]
      omega
    | some items =>
      obtain ⟨h, rfl⟩ := answer_one (hv k List.mem_cons_self) ha
      simp only [Option.getD_some, Option.isNone_some]
      rw [List.countP_singleton, Item.answers]
      by_cases hk : k = l
      · simp [hk]; omega
      · simp [hk]; omega

theorem Always.appendFine {P : List Item → Item → Prop} : ∀ (ext : List Item) {log : List Item}, Always P log →
    (∀ i ∈ ext, i.neutral = true) →
    (∀ i ∈ ext, ∀ R : List Item, (∀ j ∈ R, j.neutral = true) → P (log ++ R) i) → Always P (log ++ ext)
  | [], log, h, _, _ => by simpa using h
  | a :: ext, log, h, hn, he => by
    have h1 := h.snoc (a := a) (by simpa using he a List.mem_cons_self [] (by simp))
    have := Always.appendFine ext h1 (fun i hi => hn i (List.mem_cons_of_mem _ hi)) (by
      intro i hi R hR
      have := he i (List.mem_cons_of_mem _ hi) (a :: R) (by
        intro j hj
        rcases List.mem_cons.1 hj with rfl | hj
        · exact hn _ List.mem_cons_self
        · exact hR j hj)
      simpa using this)
    simpa using this

theorem answer_neutral {c : Core} {l : Lookup} {items : List Item} (ha : c.answer l = some items) :
    ∀ i ∈ items, i.neutral = true := by
  intro i hi
  unfold Core.answer at ha
  split at ha
  · split at ha
    · cases ha; simp at hi; subst hi; rfl
    · split at ha
      · cases ha; simp at hi; subst hi; rfl
      · cases ha
  · split at ha
    · dsimp only at ha
      split at ha
      · cases ha; simp at hi; subst hi; rfl
      · cases ha
    · cases ha; simp at hi

/-- The pending lookups are tried again. -/
theorem CInv.retry {pm : Pid} {c : Core} (h : CInv pm c) : CInv pm c.retry := by
  have key : ∀ i ∈ c.lookups.flatMap (fun l => (c.answer l).getD []), ∃ l items, c.answer l = some items ∧ i ∈ items := by
    intro i hi
    obtain ⟨l, _, hl⟩ := List.mem_flatMap.1 hi
    cases ha : c.answer l with
    | none => rw [ha] at hl; simp at hl
    | some items => rw [ha] at hl; exact ⟨l, items, ha, hl⟩
  refine h.sayNeutral ?_ (h.fine.appendFine _ ?_ ?_) ?_ ?_
  · intro i hi
    obtain ⟨l, items, ha, hm⟩ := key i hi
    exact answer_neutral ha i hm
  · intro i hi
    obtain ⟨l, items, ha, hm⟩ := key i hi
    exact answer_neutral ha i hm
  · intro i hi R hR
    obtain ⟨l, items, ha, hm⟩ := key i hi
    exact answer_fine h ha hR i hm
  · exact fun l hl => h.waits l (List.mem_filter.1 hl).1
  · exact fun l => retry_counts c l c.lookups h.waits

theorem quiet_retry (c : Core) : Quiet c.retry := by
  intro l hl hid a hm
  have := (List.mem_filter.1 hl).2
  unfold Core.answer at this
  rw [if_pos hid] at this
  have : ¬ c.singletons.lookup l.ident = none := by
    intro hn
    exact lookup_none_mem hn a hm
  revert ‹(Option.isNone _) = true›
  unfold Core.singleton
  cases hs : c.singletons.lookup l.ident with
  | none => exact absurd hs this
  | some b => simp

/-- A message that is no exit of a singleton and no shutdown. -/
theorem CInv.sayInp {pm : Pid} {c : Core} (h : CInv pm c) {i : Input} {ls : List Lookup}
    (he : ∀ p, i = .exit p → p = 0) (hs : i ≠ .shutdown) (hv : ∀ l ∈ ls, l.valid)
    (hle : ∀ l, ls.count l ≤ c.lookups.count l + [i].count (.lookup l))
    (hge : ∀ l, l.valid → c.lookups.count l + [i].count (.lookup l) ≤ ls.count l) :
    CInv pm ({ c with lookups := ls }.say [.inp i]) := by
  have hok : ∀ p ∈ c.singletons, p.2.pid ≠ 0 := by
    intro p hp h0
    obtain ⟨w, hw⟩ := (h.single p hp).2
    obtain ⟨l1, l2, hl⟩ := List.append_of_mem hw
    have := (h.fine l1 _ l2 hl).1
    unfold Handle.ok at this
    simp [h0] at this
  have hc1 : ∀ l, [Item.inp i].count (.inp (.lookup l)) = [i].count (.lookup l) := by
    intro l
    simp [List.count_singleton]
  have hc2 : ∀ l, [Item.inp i].countP (Item.answers l) = 0 := by
    intro l; simp [Item.answers]
  refine ⟨h.fine.snoc trivial, ?_, ?_, h.keys, ?_, ?_, ?_, ?_, ?_, hv, ?_, ?_⟩
  · intro a x hx hl
    rcases hl.snoc with ⟨hl, _⟩ | ⟨w, hw⟩
    · exact h.live a x hx hl
    · cases hw
  · exact fun p hp => ⟨(h.single p hp).1, (h.single p hp).2.imp fun w hw => List.mem_append_left _ hw⟩
  · intro ho
    have := h.once ho.prefix
    refine ⟨this.1, fun p hp => (this.2 p hp).keep ?_⟩
    intro hc
    have := he _ (Item.inp.inj hc)
    exact hok p hp this
  · intro pid hp
    rcases hp.snoc with ⟨hp, _⟩ | ⟨a, x, hw, _⟩
    · exact h.spared pid hp
    · cases hw
  · exact fun hm => h.me (fun hc => hm (List.mem_append_left _ hc))
  · exact fun hl => (h.closing hl).imp (List.mem_append_left _) (List.mem_append_left _)
  · intro hm
    rcases List.mem_append.1 hm with hm | hm
    · exact h.closed hm
    · simp at hm; exact absurd hm.symm hs
  · intro l
    simp only [Core.say, List.countP_append, List.count_append, hc1, hc2]
    have := h.atMost l
    have := hle l
    omega
  · intro l hvl hx
    simp only [Core.say, List.countP_append, List.count_append, hc1, hc2]
    have := h.atLeast l hvl (fun hc => hx (List.mem_append_left _ hc))
    have := hge l hvl
    omega

theorem CInv.inp {pm : Pid} {c : Core} (h : CInv pm c) {i : Input} (he : ∀ p, i = .exit p → p = 0)
    (hs : i ≠ .shutdown) (hl : ∀ l, i ≠ .lookup l) : CInv pm (c.say [.inp i]) := by
  refine h.sayInp (ls := c.lookups) he hs h.waits ?_ ?_
  · intro l; omega
  · intro l _
    have : [i].count (.lookup l) = 0 := by
      rw [List.count_eq_zero]; simp; exact fun e => hl l e.symm
    omega

theorem lookup_valid_or (l : Lookup) : l.valid ∨ (l.ident = 0 ∧ l.pid = 0) := by
  unfold Lookup.valid
  by_cases h1 : l.ident = 0
  · by_cases h2 : l.pid = 0
    · exact Or.inr ⟨h1, h2⟩
    · exact Or.inl (Or.inr h2)
  · exact Or.inl (Or.inl h1)

/-- A lookup. -/
theorem CInv.lookup {pm : Pid} {c : Core} (h : CInv pm c) (l : Lookup) :
    CInv pm ((c.say [.inp (.lookup l)]).lookup l) := by
  rcases lookup_valid_or l with hv | ⟨h0, h1⟩
  · have h1 : CInv pm ({ c with lookups := c.lookups ++ [l] }.say [.inp (.lookup l)]) := by
      refine h.sayInp (by simp) (by simp) ?_ ?_ ?_
      · intro k hk
        rcases List.mem_append.1 hk with hk | hk
        · exact h.waits k hk
        · simp at hk; subst hk; exact hv
      · intro k
        simp only [List.count_append, List.count_singleton]
        by_cases hk : l = k <;> simp [hk]
      · intro k _
        simp only [List.count_append, List.count_singleton]
        by_cases hk : l = k <;> simp [hk]
    unfold Core.lookup
    cases ha : (c.say [.inp (.lookup l)]).answer l with
    | none => exact h1
    | some items =>
      have ha' : ({ c with lookups := c.lookups ++ [l] }.say [.inp (.lookup l)]).answer l = some items := ha
      obtain ⟨a, rfl⟩ := answer_one hv ha
      have h2 := h1.sayNeutral (items := [.lookupReply l a]) (ls := c.lookups) (by simp [Item.neutral])
        (h1.fine.snoc (by simpa using answer_fine h1 ha' (R := []) (by simp) _ List.mem_cons_self))
        h.waits (by
          intro k
          simp only [Core.say, List.count_append, List.count_singleton, List.countP_singleton, Item.answers]
          by_cases hk : l = k <;> simp [hk]; omega)
      exact h2
  · have ha : (c.say [.inp (.lookup l)]).answer l = some [] := by
      unfold Core.answer
      rw [if_neg (by simp [h0]), if_neg (by simp [h1])]
    unfold Core.lookup
    rw [ha]
    dsimp only
    have : (c.say [.inp (.lookup l)]).say [] = c.say [.inp (.lookup l)] := by simp [Core.say]
    rw [this]
    refine h.sayInp (ls := c.lookups) (by simp) (by simp) h.waits (fun k => by omega) ?_
    intro k hk
    have : l ≠ k := by
      rintro rfl
      rcases hk with hk | hk
      · exact hk h0
      · exact hk h1
    have : [Input.lookup l].count (.lookup k) = 0 := by
      rw [List.count_eq_zero]; simp; exact fun e => this e.symm
    omega

theorem quiet_lookup {c : Core} (h : Quiet c) (l : Lookup) : Quiet ((c.say [.inp (.lookup l)]).lookup l) := by
  unfold Core.lookup
  cases ha : (c.say [.inp (.lookup l)]).answer l with
  | some items => exact h
  | none =>
    intro k hk hid a hm
    rcases List.mem_append.1 hk with hk | hk
    · exact h k hk hid a hm
    · simp at hk; subst hk
      unfold Core.answer at ha
      rw [if_pos hid] at ha
      unfold Core.singleton at ha
      cases hs : (c.say [.inp (.lookup k)]).singletons.lookup k.ident with
      | none => exact lookup_none_mem hs a hm
      | some b => rw [hs] at ha; cases ha

theorem eraseSingleton_sublist (pid : Pid) : ∀ l : List (Ident × Handle), (eraseSingleton pid l).Sublist l
  | [] => .refl _
  | x :: xs => by
    unfold eraseSingleton
    split
    · exact List.sublist_cons_self x xs
    · exact (eraseSingleton_sublist pid xs).cons_cons x

theorem mem_eraseSingleton {pid : Pid} {p : Ident × Handle} (hp : p.2.pid ≠ pid) : ∀ {l : List (Ident × Handle)}, p ∈ l →
    p ∈ eraseSingleton pid l
  | x :: xs, hm => by
    unfold eraseSingleton
    rcases List.mem_cons.1 hm with rfl | hm
    · rw [if_neg hp]; exact List.mem_cons_self
    · split
      · exact hm
      · exact List.mem_cons_of_mem _ (mem_eraseSingleton hp hm)

theorem eraseSingleton_gone {pid : Pid} : ∀ {l : List (Ident × Handle)}, (l.map (·.2.pid)).Nodup →
    ∀ p ∈ eraseSingleton pid l, p.2.pid ≠ pid
  | [], _, p, hp => by simp [eraseSingleton] at hp
  | x :: xs, hn, p, hp => by
    rw [List.map_cons, List.nodup_cons] at hn
    unfold eraseSingleton at hp
    split at hp
    · rename_i hx
      rintro rfl
      exact hn.1 (hx ▸ List.mem_map.2 ⟨p, hp, rfl⟩)
    · rename_i hx
      rcases List.mem_cons.1 hp with rfl | hp
      · exact hx
      · exact eraseSingleton_gone hn.2 p hp

/-- An exit, up to the entities. -/
theorem CInv.forget {pm : Pid} {c : Core} (h : CInv pm c) (pid : Pid) :
    CInv pm ((c.say [.inp (.exit pid)]).forget pid) := by
  have hsub := eraseSingleton_sublist pid c.singletons
  refine ⟨h.fine.snoc trivial, ?_, ?_, h.keys.sublist (hsub.map _), ?_, ?_, ?_, ?_, ?_, ?_, ?_, ?_⟩
  · intro a x hx hl
    rcases hl.snoc with ⟨hl, hne⟩ | ⟨w, hw⟩
    · exact mem_eraseSingleton (p := (x, a)) (fun e => hne (by rw [← e])) (h.live a x hx hl)
    · cases hw
  · exact fun p hp => ⟨(h.single p (hsub.subset hp)).1,
      (h.single p (hsub.subset hp)).2.imp fun w hw => List.mem_append_left _ hw⟩
  · intro ho
    have := h.once ho.prefix
    refine ⟨this.1.sublist (hsub.map _), fun p hp => (this.2 p (hsub.subset hp)).keep ?_⟩
    intro hc
    have := eraseSingleton_gone this.1 p hp
    cases hc
    exact this rfl
  · intro q hq
    rcases hq.snoc with ⟨hq, hne⟩ | ⟨a, x, hw, _⟩
    · refine List.mem_filter.2 ⟨h.spared q hq, ?_⟩
      exact decide_eq_true (fun e => hne (by rw [e]))
    · cases hw
  · intro hm
    refine List.mem_filter.2 ⟨h.me (fun hc => hm (List.mem_append_left _ hc)), ?_⟩
    exact decide_eq_true (fun e => hm (List.mem_append_right _ (by rw [e]; exact List.mem_cons_self)))
  · exact fun hl => (h.closing hl).imp (List.mem_append_left _) (List.mem_append_left _)
  · intro hm
    rcases List.mem_append.1 hm with hm | hm
    · exact h.closed hm
    · simp at hm
  · exact fun l hl => h.waits l (List.mem_filter.1 hl).1
  · intro l
    have h1 := h.atMost l
    have h2 : (c.lookups.filter fun l => l.requester.pid ≠ pid).count l ≤ c.lookups.count l :=
      (List.filter_sublist).count_le l
    simp only [Core.forget, Core.say, List.countP_append, List.count_append]
    simp only [decide_not] at h2
    simp [Item.answers]
    omega
  · intro l hv hx
    have h1 := h.atLeast l hv (fun hc => hx (List.mem_append_left _ hc))
    have hne : l.requester.pid ≠ pid := fun e => hx (List.mem_append_right _ (by rw [e]; exact List.mem_cons_self))
    have h2 : (c.lookups.filter fun l => l.requester.pid ≠ pid).count l = c.lookups.count l :=
      List.count_filter (by simpa using hne)
    simp only [Core.forget, Core.say, List.countP_append, List.count_append]
    simp only [decide_not] at h2
    simp [Item.answers]
    omega

theorem quiet_forget {c : Core} (h : Quiet c) (pid : Pid) : Quiet (c.forget pid) := by
  intro l hl hid a hm
  exact h l (List.mem_filter.1 hl).1 hid a ((eraseSingleton_sublist pid _).subset hm)

/-- A process is admitted. -/
theorem CInv.admit {pm : Pid} {c : Core} (h : CInv pm c) {a : Handle} {x : Ident} (w : Bool) (hok : a.ok = true)
    (hr : ¬ 1 < c.runlevel.toNat) (hs : x ≠ 0 → c.singleton x = none) :
    CInv pm ({ c with
      singletons := if x ≠ 0 then c.singletons ++ [(x, a)] else c.singletons
      whitelisted := if w then c.whitelisted ++ [a.pid] else c.whitelisted }.say [.admitted a x w]) := by
  have hno : x ≠ 0 → ∀ b, (x, b) ∉ c.singletons := fun hx b => lookup_none_mem (hs hx) b
  have hnl : x ≠ 0 → ∀ b, ¬ Live c.log b x := fun hx b hl => hno hx b (h.live b x hx hl)
  have hmem : ∀ p, p ∈ (if x ≠ 0 then c.singletons ++ [(x, a)] else c.singletons) ↔
      p ∈ c.singletons ∨ (x ≠ 0 ∧ p = (x, a)) := by
    intro p
    split
    · rename_i hx; simp [hx]
    · rename_i hx; simp [hx]
  refine ⟨h.fine.snoc ⟨hok, fun hm => hr (h.closed hm), hnl⟩, ?_, ?_, ?_, ?_, ?_, ?_, ?_, ?_, h.waits, ?_, ?_⟩
  · intro b y hy hl
    rcases hl.snoc with ⟨hl, _⟩ | ⟨w', hw⟩
    · exact (hmem _).2 (Or.inl (h.live b y hy hl))
    · cases hw
      exact (hmem _).2 (Or.inr ⟨hy, rfl⟩)
  · intro p hp
    rcases (hmem p).1 hp with hp | ⟨hx, rfl⟩
    · exact ⟨(h.single p hp).1, (h.single p hp).2.imp fun w hw => List.mem_append_left _ hw⟩
    · exact ⟨hx, w, List.mem_append_right _ List.mem_cons_self⟩
  · dsimp only [Core.say]
    split
    · rename_i hx
      rw [List.map_append, List.nodup_append]
      refine ⟨h.keys, by simp, ?_⟩
      intro k hk k' hk' he
      simp at hk'; subst hk'; subst he
      obtain ⟨p, hp, rfl⟩ := List.mem_map.1 hk
      exact hno hx p.2 hp
    · exact h.keys
  · intro ho
    have h1 := h.once ho.prefix
    have h2 := ho c.log (.admitted a x w) [] rfl
    dsimp only at h2
    refine ⟨?_, ?_⟩
    · dsimp only [Core.say]
      split
      · rw [List.map_append, List.nodup_append]
        refine ⟨h1.1, by simp, ?_⟩
        intro k hk k' hk' he
        simp at hk'; subst hk'; subst he
        obtain ⟨p, hp, hpe⟩ := List.mem_map.1 hk
        exact h2 _ _ (h1.2 p hp) hpe
      · exact h1.1
    · intro p hp
      rcases (hmem p).1 hp with hp | ⟨hx, rfl⟩
      · exact (h1.2 p hp).keep (by simp)
      · exact Live.new
  · intro pid hp
    dsimp only [Core.say]
    rcases hp.snoc with ⟨hp, _⟩ | ⟨b, y, hw, rfl⟩
    · split
      · exact List.mem_append_left _ (h.spared pid hp)
      · exact h.spared pid hp
    · cases hw
      rw [if_pos rfl]
      exact List.mem_append_right _ List.mem_cons_self
  · intro hm
    have := h.me (fun hc => hm (List.mem_append_left _ hc))
    dsimp only [Core.say]
    split
    · exact List.mem_append_left _ this
    · exact this
  · exact fun hl => absurd hl hr
  · intro hm
    rcases List.mem_append.1 hm with hm | hm
    · exact h.closed hm
    · simp at hm
  · intro l
    have := h.atMost l
    simp only [Core.say, List.countP_append, List.count_append]
    simp [Item.answers]
    omega
  · intro l hv hx
    have := h.atLeast l hv (fun hc => hx (List.mem_append_left _ hc))
    simp only [Core.say, List.countP_append, List.count_append]
    simp [Item.answers]
    omega

/-- An assassination. -/
theorem CInv.assassinate {pm : Pid} {c : Core} (h : CInv pm c) (t : Pid) (k : Contract) : CInv pm (c.assassinate t k) := by
  unfold Core.assassinate
  split
  · exact h
  · split
    · exact h
    · rename_i hw
      have hw : t ∉ c.whitelisted := by simpa using hw
      refine ⟨h.fine.snoc ⟨fun hs => hw (h.spared t hs), ?_⟩, ?_, ?_, h.keys, ?_, ?_, ?_, ?_, ?_, h.waits, ?_, ?_⟩
      · rintro rfl
        exact Classical.byContradiction fun hc => hw (h.me hc)
      · intro a x hx hl
        rcases hl.snoc with ⟨hl, _⟩ | ⟨w, hw⟩
        · exact h.live a x hx hl
        · cases hw
      · exact fun p hp => ⟨(h.single p hp).1, (h.single p hp).2.imp fun w hw => List.mem_append_left _ hw⟩
      · intro ho
        have := h.once ho.prefix
        exact ⟨this.1, fun p hp => (this.2 p hp).keep (by simp)⟩
      · intro pid hp
        rcases hp.snoc with ⟨hp, _⟩ | ⟨a, x, hw, _⟩
        · exact h.spared pid hp
        · cases hw
      · exact fun hm => h.me (fun hc => hm (List.mem_append_left _ hc))
      · exact fun hl => (h.closing hl).imp (List.mem_append_left _) (List.mem_append_left _)
      · intro hm
        rcases List.mem_append.1 hm with hm | hm
        · exact h.closed hm
        · simp at hm
      · intro l
        have := h.atMost l
        simp only [Core.say, List.countP_append, List.count_append]
        simp [Item.answers]
        omega
      · intro l hv hx
        have := h.atLeast l hv (fun hc => hx (List.mem_append_left _ hc))
        simp only [Core.say, List.countP_append, List.count_append]
        simp [Item.answers]
        omega

/-! ### The handlers -/

/-- Both together. -/
def CGood (pm : Pid) (c : Core) : Prop := CInv pm c ∧ Quiet c

theorem Quiet.frame {c c' : Core} (h : Quiet c) (f : Frame c c') : Quiet c' := by
  unfold Quiet; rw [f.lookups, f.singletons]; exact h

/-- The tasks do not shut the domain down. -/
def Same (c c' : Core) : Prop := 1 < c'.runlevel.toNat → 1 < c.runlevel.toNat

theorem scaleInstances_level (lib : Lib) (c : Core) (id : EId) : (c.scaleInstances lib id).runlevel = c.runlevel := by
  unfold Core.scaleInstances
  split
  · have h1 : ∀ (c : Core) (hs : List Handle), (c.shutdownProcs hs).runlevel = c.runlevel := by
      intro c hs
      unfold Core.shutdownProcs
      split
      · split <;> rfl
      · rfl
    have h2 : ∀ (c : Core) (e : Entity), (c.scaleIn e).runlevel = c.runlevel := by
      intro c e
      unfold Core.scaleIn
      dsimp only
      split
      · rfl
      · split
        · rfl
        · exact h1 _ _
    have h3 : ∀ (c : Core) (e : Entity), (c.scaleOut lib e).runlevel = c.runlevel := by
      intro c e
      unfold Core.scaleOut
      dsimp only
      split <;> rfl
    rw [h3, h2]
  · rfl

theorem scaleMembers_level (lib : Lib) : ∀ (ms : List EId) (c : Core), (c.scaleMembers lib ms).runlevel = c.runlevel
  | [], _ => rfl
  | id :: ms, c => by
    have := scaleMembers_level lib ms (c.scaleInstances lib id)
    rw [scaleInstances_level] at this
    exact this

theorem stopLast_level (c : Core) (k : Kind) (hs : List Handle) : (c.stopLast k hs).runlevel = c.runlevel := by
  unfold Core.stopLast
  split
  · rfl
  · split
    · unfold Core.shutdownProcs
      split
      · split <;> rfl
      · rfl
    · rfl

theorem act_same (lib : Lib) (a : Act) (b : Body) (c : Core) : Same c (act lib a b c).1 := by
  unfold act
  split
  · dsimp only
    split
    · intro h; rw [← scaleMembers_level lib]; exact h
    · intro h; rw [← scaleMembers_level lib]; exact h
  · intro h
    have : 1 < (c.runlevel.raise .running).toNat := h
    unfold Runlevel.raise at this
    split at this
    · simp [Runlevel.toNat] at this
    · exact this
  · exact id
  · split
    · exact id
    · dsimp only
      split
      · exact id
      · intro h
        rw [stopLast_level] at h
        exact h

theorem handle_level (b : Body) (m : Msg) (h : Core → Core × Body × Dispatch) (hh : DManager.handle b m = some h) (c : Core) :
    (h c).1.runlevel = c.runlevel := by
  have hf : ∀ id o ps fr pid, (freshGone id o ps fr pid c).1.runlevel = c.runlevel := by
    intro id o ps fr pid
    unfold freshGone
    split
    · dsimp only
      split
      · rfl
      · exact stopLast_level c _ _
    · rfl
  unfold DManager.handle at hh
  split at hh
  · cases hh
  · cases hh
    dsimp only
    split <;> rfl
  · split at hh
    · cases hh; exact hf _ _ _ _ _
    · cases hh
      dsimp only
      split <;> rfl
    · cases hh; exact hf _ _ _ _ _
    · cases hh; rfl
    · cases hh
      dsimp only
      split
      · split
        · split
          · rfl
          · exact stopLast_level c _ _
        · rfl
      · rfl
    · cases hh

theorem same_keeps (lib : Lib) : Keeps (ops lib) Same where
  refl := fun _ h => h
  trans := fun h1 h2 h => h1 (h2 h)
  act := act_same lib
  handle := fun b m h hh s => by unfold Same; rw [handle_level b m h hh s]; exact id

theorem Same.tasks (lib : Lib) (s : State) (m : Msg) : Same s.st (s.tasks lib m).st :=
  (same_keeps lib).coordMsg m s.conts s.st

theorem Same.thenAll (lib : Lib) : ∀ (gs : List (List (Act × Body))) (s : State), Same s.st (s.thenAll lib gs).st
  | [], s => id
  | g :: gs, s => fun h =>
    (same_keeps lib).coordThen (mkGroup s.seq g) s.conts s.st (Same.thenAll lib gs (s.step (ops lib) (.then_ g)) h)

theorem CGood.frame {pm : Pid} {c c' : Core} (h : CGood pm c) (f : Frame c c') (hs : Same c c') : CGood pm c' :=
  ⟨h.1.frame f (fun hl => h.1.closing (hs hl)), h.2.frame f⟩

theorem CGood.tasks {pm : Pid} {lib : Lib} {s : State} (h : CGood pm s.st) (m : Msg) : CGood pm (s.tasks lib m).st :=
  h.frame (.tasks lib s m) (.tasks lib s m)

theorem CGood.thenAll {pm : Pid} {lib : Lib} {s : State} (h : CGood pm s.st) (gs : List (List (Act × Body))) :
    CGood pm (s.thenAll lib gs).st :=
  h.frame (.thenAll lib gs s) (.thenAll lib gs s)

theorem CGood.plains {pm : Pid} {c : Core} (h : CGood pm c) {items : List Item} (hp : ∀ i ∈ items, i.plain = true) :
    CGood pm (c.say items) := ⟨h.1.sayPlains items hp, h.2⟩

theorem CGood.prepared {pm : Pid} {c : Core} (h : CGood pm c) (hs : List Handle) : CGood pm (c.prepared hs) := by
  refine h.plains ?_
  intro i hi
  obtain ⟨x, _, rfl⟩ := List.mem_map.1 hi
  split <;> rfl

/-- Only what the manager makes of its own state. -/
theorem CGood.entities {pm : Pid} {c c' : Core} (h : CGood pm c) (h1 : c'.log = c.log) (h2 : c'.singletons = c.singletons)
    (h3 : c'.whitelisted = c.whitelisted) (h4 : c'.lookups = c.lookups) (h5 : c'.runlevel = c.runlevel) : CGood pm c' :=
  ⟨h.1.congr h1 h2 h3 h4 (by rw [h5]; exact Nat.le_refl _) (by rw [h5, h1]; exact h.1.closing), by unfold Quiet; rw [h4, h2]; exact h.2⟩

theorem CGood.remove {pm : Pid} {c : Core} {pid : Pid} (h : CGood pm (c.forget pid)) : CGood pm (c.remove pid).1 := by
  have key : ∀ {c' : Core} {k : Kind}, CGood pm c' → CGood pm (match c'.byPid k pid with
      | some e => (c'.modify e.id fun e => { e with instances := removeInst e.restart pid e.instances },
        if e.restart && decide (c'.runlevel = Runlevel.running) then some e.id else none)
      | none => (c', none)).1 := by
    intro c' k hc
    split
    · exact hc.entities rfl rfl rfl rfl rfl
    · exact hc
  unfold Core.remove
  dsimp only
  have h1 := key (k := .server) h
  split
  · exact h1
  · have h2 := key (k := .executable) h1
    split
    · exact h2
    · exact h2.entities rfl rfl rfl rfl rfl

theorem shutdown_good {pm : Pid} {lib : Lib} {s : State} (h : CGood pm s.st) (hc : Closing s.st.log) :
    CGood pm (s.shutdown lib).st := by
  unfold State.shutdown
  dsimp only
  refine CGood.thenAll ?_ _
  refine ⟨h.1.congr rfl rfl rfl rfl (raise_le _ _) (fun _ => hc), h.2⟩

theorem raise_shut (r : Runlevel) (w : Runlevel) (h : 1 < w.toNat) : 1 < (r.raise w).toNat :=
  Nat.lt_of_lt_of_le h (raise_ge r w)

/-- The log of a shutdown. -/
theorem CInv.inpShutdown {pm : Pid} {c : Core} (h : CInv pm c) :
    CInv pm { c.say [.inp .shutdown] with runlevel := c.runlevel.raise .shutdown } := by
  have hc2 : ∀ l, [Item.inp .shutdown].countP (Item.answers l) = 0 := by
    intro l; simp [Item.answers]
  refine ⟨h.fine.snoc trivial, ?_, ?_, h.keys, ?_, ?_, ?_, ?_, ?_, h.waits, ?_, ?_⟩
  · intro a x hx hl
    rcases hl.snoc with ⟨hl, _⟩ | ⟨w, hw⟩
    · exact h.live a x hx hl
    · cases hw
  · exact fun p hp => ⟨(h.single p hp).1, (h.single p hp).2.imp fun w hw => List.mem_append_left _ hw⟩
  · intro ho
    have := h.once ho.prefix
    exact ⟨this.1, fun p hp => (this.2 p hp).keep (by simp)⟩
  · intro pid hp
    rcases hp.snoc with ⟨hp, _⟩ | ⟨a, x, hw, _⟩
    · exact h.spared pid hp
    · cases hw
  · exact fun hm => h.me (fun hc => hm (List.mem_append_left _ hc))
  · exact fun _ => Or.inl (List.mem_append_right _ List.mem_cons_self)
  · exact fun _ => raise_shut _ _ (by decide)
  · intro l
    have := h.atMost l
    simp only [Core.say, List.countP_append, List.count_append]
    simp [Item.answers]
    omega
  · intro l hv hx
    have := h.atLeast l hv (fun hc => hx (List.mem_append_left _ hc))
    simp only [Core.say, List.countP_append, List.count_append]
    simp [Item.answers]
    omega

theorem input_good {pm : Pid} {lib : Lib} {s : State} (h : CGood pm s.st) (i : Input) : CGood pm (s.input lib i).st := by
  unfold State.input
  split
  · exact h
  · have inp : ∀ {i : Input}, (∀ p, i = .exit p → p = 0) → i ≠ .shutdown → (∀ l, i ≠ .lookup l) →
        CGood pm (s.st.say [.inp i]) := fun h1 h2 h3 => ⟨h.1.inp h1 h2 h3, h.2⟩
    cases i with
    | own =>
      have h1 := inp (i := .own) (by simp) (by simp) (by simp)
      dsimp only [State.handle]
      unfold State.own
      split
      · exact h1
      · dsimp only
        rename_i ms _
        have h2 : CGood pm { s.st.say [.inp .own] with own := ms } := h1.entities rfl rfl rfl rfl rfl
        split
        · exact CGood.tasks (s := (s.on fun c => c.say [.inp .own]).on fun c => { c with own := ms }) h2 _
        · exact CGood.prepared h2 _
    | exit pid =>
      dsimp only [State.handle]
      split
      · rename_i h0
        exact inp (i := .exit pid) (by intro p hp; cases hp; exact h0) (by simp) (by simp)
      · unfold State.exit
        dsimp only
        refine CGood.tasks ?_ _
        have h1 : CGood pm ((s.st.say [.inp (.exit pid)]).remove pid).1 :=
          CGood.remove ⟨h.1.forget pid, quiet_forget (c := s.st.say [.inp (.exit pid)]) h.2 pid⟩
        dsimp only [State.on]
        split
        · exact h1.frame (.scaleInstances lib _ _) (by unfold Same; rw [scaleInstances_level]; exact id)
        · exact h1
    | connect a x w =>
      have h1 := inp (i := .connect a x w) (by simp) (by simp) (by simp)
      dsimp only [State.handle]
      split
      · rename_i hok
        unfold State.connect
        split
        · exact h1.plains (by simp [Item.plain])
        · rename_i hr
          split
          · have h2 : CGood pm ((s.st.say [.inp (.connect a x w)]).adjust a.pid) := by
              unfold Core.adjust
              split
              · exact h1.entities rfl rfl rfl rfl rfl
              · split
                · exact h1.entities rfl rfl rfl rfl rfl
                · exact h1
            exact h2.plains (by simp [Item.plain])
          · rename_i hx
            have h2 := h1.1.admit (a := a) (x := x) w hok hr (by
              intro hx0
              cases hs : (s.st.say [.inp (.connect a x w)]).singleton x with
              | none => rfl
              | some b => exact absurd ⟨hx0, by rw [show ((s.on fun c => c.say [.inp (.connect a x w)]).st.singleton x) = some b from hs]; rfl⟩ hx)
            dsimp only
            refine CGood.plains ?_ (by simp [Item.plain])
            unfold State.connected
            refine CGood.tasks ?_ _
            refine ⟨CInv.retry ?_, quiet_retry _⟩
            dsimp only [State.on]
            split
            · exact h2.congr rfl rfl rfl rfl (Nat.le_refl _) h2.closing
            · exact h2.congr rfl rfl rfl rfl (Nat.le_refl _) h2.closing
      · exact h1
    | prepareReply hs => exact (inp (i := .prepareReply hs) (by simp) (by simp) (by simp)).prepared hs
    | lookup l => exact ⟨h.1.lookup l, quiet_lookup h.2 l⟩
    | scale as =>
      have h1 := inp (i := .scale as) (by simp) (by simp) (by simp)
      refine h1.frame (.scale lib (s.on fun c => c.say [.inp (.scale as)]) as) ?_
      dsimp only [State.handle]
      unfold State.scale
      dsimp only
      intro hl
      have := Same.thenAll lib _ _ hl
      have hfold : ∀ (ids : List EId) (c : Core), (ids.foldl (Core.scaleRequested as) c).runlevel = c.runlevel := by
        intro ids
        induction ids with
        | nil => intro c; rfl
        | cons id ids ih => intro c; rw [List.foldl_cons, ih]; rfl
      dsimp only [State.on] at this
      rw [hfold] at this
      exact this
    | restartAliases as =>
      have h1 := inp (i := .restartAliases as) (by simp) (by simp) (by simp)
      exact h1.frame (.restart lib (s.on fun c => c.say [.inp (.restartAliases as)]) as) (Same.thenAll lib _ _)
    | restartGroups as =>
      have h1 := inp (i := .restartGroups as) (by simp) (by simp) (by simp)
      exact h1.frame (.restartBatches lib (s.on fun c => c.say [.inp (.restartGroups as)]) as) (Same.thenAll lib _ _)
    | shutdown =>
      dsimp only [State.handle]
      unfold State.shutdown
      dsimp only
      refine CGood.thenAll ?_ _
      have := h.1.inpShutdown
      exact ⟨this.congr rfl rfl rfl rfl (Nat.le_refl _) this.closing, h.2⟩
    | fatal =>
      have h1 := inp (i := .fatal) (by simp) (by simp) (by simp)
      dsimp only [State.handle]
      split
      · have hc : Closing (s.st.say [.inp .fatal]).log := Or.inr (List.mem_append_right _ List.mem_cons_self)
        refine shutdown_good ?_ hc
        exact ⟨h1.1.congr rfl rfl rfl rfl (raise_le _ _) (fun _ => hc), h1.2⟩
      · exact h1
    | assassinate t k =>
      have h1 := inp (i := .assassinate t k) (by simp) (by simp) (by simp)
      refine ⟨h1.1.assassinate t k, ?_⟩
      dsimp only [State.handle, State.on]
      unfold Core.assassinate
      split
      · exact h1.2
      · split
        · exact h1.2
        · exact h1.2

theorem start_good (lib : Lib) (u : Setup) : CGood u.self.pid (State.start lib u).st := by
  unfold State.start State.boot
  refine CGood.thenAll ?_ _
  refine ⟨⟨Always.nil _, ?_, by simp, by simp, ?_, ?_, by simp, ?_, by simp, by simp, by simp, by simp⟩, by simp [Quiet]⟩
  · rintro a x _ ⟨l1, l2, w, he, _⟩; simp at he
  · intro _; simp
  · rintro pid ⟨l1, l2, a, x, he, _⟩; simp at he
  · intro h; simp [Runlevel.toNat] at h

theorem run_good {pm : Pid} (lib : Lib) : ∀ (is : List Input) (s : State), CGood pm s.st → CGood pm (s.run lib is).st
  | [], _, h => h
  | i :: is, s, h => run_good lib is _ (input_good h i)

end Casual.DManager
