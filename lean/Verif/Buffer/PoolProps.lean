import Verif.Buffer.PoolLemmas
/-!
# Properties of handles
-/
namespace Casual.Buffer.Pool
open Casual.Data Casual.Buffer.Field

/-- What a process does with buffers, in any order. The addresses are the choices of the memory allocator. -/
inductive Op
  | allocate (type : String) (size : Int) (a : Nat)
  | reallocate (h : Nat) (size : Int) (a : Nat)
  | mutate (h : Nat) (data : List Byte) (a : Nat)
  | free (h : Nat)
  | called (p : Payload) (a : Nat)
  | reply (odata : Nat) (noChange : Bool) (p : Payload) (a : Nat)
  | replyFail (odata : Nat) (p : Payload) (a : Nat)
  | insert (p : Payload) (a : Nat)
  | return (h : Nat) (size : Int)
  | done
  deriving DecidableEq, Repr

/-- The buffers after. -/
def Op.run (ps : Holder) : Op → Holder
  | .allocate t n a => (Pool.allocate ps t n a).2
  | .reallocate h n a => (Pool.reallocate ps h n a).2
  | .mutate h d a => Pool.mutate ps h d a
  | .free h => (deallocate ps h).2
  | .called p a => (adopt ps p a).2
  | .reply o nc p a => (Pool.reply ps o nc p a).2
  | .replyFail o p a => (Pool.replyFail ps o p a).2
  | .insert p a => (Pool.insert ps p a).2
  | .return h n => (release ps h n).2
  | .done => clear ps

/-- New memory is where nothing is; memory that is resized can stay where it is. -/
def Op.Possible (ps : Holder) : Op → Prop
  | .allocate _ _ a => Fresh ps a
  | .reallocate h _ a => a = h ∨ Fresh ps a
  | .mutate h _ a => a = h ∨ Fresh ps a
  | .called _ a => Fresh ps a
  | .reply _ _ _ a => Fresh ps a
  | .replyFail _ _ a => Fresh ps a
  | .insert _ a => Fresh ps a
  | _ => True

/-- Whether a call is about this buffer: its handle is given to it, or it is the inbound buffer and the service is done. -/
def Op.Concerns (h : Nat) (b : Block) : Op → Prop
  | .reallocate h' _ _ => h' = h
  | .mutate h' _ _ => h' = h
  | .free h' => h' = h
  | .reply o _ _ _ => o = h
  | .replyFail o _ _ => o = h
  | .return h' _ => h' = h
  | .done => b.inbound = true
  | _ => False

/-- Histories. -/
inductive Run : Holder → List Op → Holder → Prop
  | nil (ps) : Run ps [] ps
  | cons {ps op ops ps'} : op.Possible ps → Run (op.run ps) ops ps' → Run ps (op :: ops) ps'

/-- A process that has just started: no buffers. -/
def Start (ps : Holder) : Prop := ∀ p ∈ ps, p.blocks = []

/-! ## What a step does -/

theorem distinct_push {l r : List (Kind × Block)} {e : Kind × Block} (hd : (l ++ r).Pairwise fun e e' => e.2.addr = e'.2.addr → e.2.addr = 0)
    (hf : e.2.addr = 0 ∨ ∀ x ∈ l ++ r, x.2.addr ≠ e.2.addr) : (l ++ e :: r).Pairwise fun e e' => e.2.addr = e'.2.addr → e.2.addr = 0 := by
  rw [List.pairwise_append] at hd ⊢
  obtain ⟨h1, h2, h3⟩ := hd
  refine ⟨h1, List.pairwise_cons.mpr ⟨?_, h2⟩, ?_⟩
  · intro x hx ha
    rcases hf with h | h
    · exact h
    · exact absurd ha.symm (h x (by simp [hx]))
  · intro x hx y hy ha
    rcases List.mem_cons.mp hy with rfl | hy
    · rcases hf with h | h
      · rw [ha, h]
      · exact absurd ha (h x (by simp [hx]))
    · exact h3 x hx y hy ha

theorem distinct_drop {l r : List (Kind × Block)} {e : Kind × Block} (hd : (l ++ e :: r).Pairwise fun e e' => e.2.addr = e'.2.addr → e.2.addr = 0) :
    (l ++ r).Pairwise fun e e' => e.2.addr = e'.2.addr → e.2.addr = 0 :=
  hd.sublist (by simp)

/-- One entry is replaced. -/
theorem held_modify {h : Nat} {ps : Holder} (g : Kind → Block → Block) (hany : ps.any (Pool.has h)) :
    ∃ l k b r, held ps = l ++ (k, b) :: r ∧ b.addr = h ∧ (∀ e ∈ l, e.2.addr ≠ h) ∧ lookup ps h = some (k, b) ∧
      held (modifyFirst (Pool.has h) (fun p => { p with blocks := modifyFirst (·.addr == h) (g p.kind) p.blocks }) ps) = l ++ (k, g k b) :: r := by
  obtain ⟨l, k, b, r, e, e1, e2, e3, e4⟩ := held_at (fun k bs => modifyFirst (·.addr == h) (g k) bs) (fun k b => [g k b]) (fun k l b r hl hb => modify_split h (g k) l b r hl hb) hany
  exact ⟨l, k, b, r, e, e1, e2, e3, by rw [e4]; simp⟩

theorem held_erase {h : Nat} {ps : Holder} (hany : ps.any (Pool.has h)) :
    ∃ l k b r, held ps = l ++ (k, b) :: r ∧ b.addr = h ∧ (∀ e ∈ l, e.2.addr ≠ h) ∧ lookup ps h = some (k, b) ∧
      held (modifyFirst (Pool.has h) (fun p => { p with blocks := eraseFirst h p.blocks }) ps) = (if b.inbound then l ++ (k, b) :: r else l ++ r) := by
  obtain ⟨l, k, b, r, e, e1, e2, e3, e4⟩ := held_at (fun _ bs => eraseFirst h bs) (fun _ b => if b.inbound then [b] else []) (fun _ l b r hl hb => erase_split h l b r hl hb) hany
  refine ⟨l, k, b, r, e, e1, e2, e3, ?_⟩
  rw [e4]; split <;> simp

theorem held_remove {h : Nat} {ps : Holder} (hany : ps.any (Pool.has h)) :
    ∃ l k b r, held ps = l ++ (k, b) :: r ∧ b.addr = h ∧ (∀ e ∈ l, e.2.addr ≠ h) ∧ lookup ps h = some (k, b) ∧
      held (modifyFirst (Pool.has h) (fun p => { p with blocks := removeFirst h p.blocks }) ps) = l ++ r := by
  obtain ⟨l, k, b, r, e, e1, e2, e3, e4⟩ := held_at (fun _ bs => removeFirst h bs) (fun _ _ => []) (fun _ l b r hl hb => remove_split h l b r hl hb) hany
  exact ⟨l, k, b, r, e, e1, e2, e3, by rw [e4]; simp⟩

/-- All that can happen to the buffers in one call: nothing, one is added, one is changed in place, one is taken away, the inbound ones are. -/
inductive Change (ps ps' : Holder) : Prop
  | same (h : held ps' = held ps)
  | push (l r : List (Kind × Block)) (e : Kind × Block) (h : held ps = l ++ r) (h' : held ps' = l ++ e :: r) (hf : e.2.addr = 0 ∨ Unknown ps e.2.addr)
  | swap (l r : List (Kind × Block)) (k : Kind) (b c : Block) (h : held ps = l ++ (k, b) :: r) (h' : held ps' = l ++ (k, c) :: r) (hf : c.addr = b.addr ∨ Fresh ps c.addr)
  | drop (l r : List (Kind × Block)) (e : Kind × Block) (h : held ps = l ++ e :: r) (h' : held ps' = l ++ r)
  | both (l r : List (Kind × Block)) (d : Kind × Block) (m : List (Kind × Block)) (h : held ps = l ++ d :: r) (l' r' : List (Kind × Block)) (e : Kind × Block)
      (hm : l ++ r = m) (h1 : m = l' ++ r') (h' : held ps' = l' ++ e :: r') (hf : e.2.addr = 0 ∨ Unknown ps e.2.addr)
  | clear (h : held ps' = (held ps).filter fun e => !e.2.inbound)

theorem change_distinct {ps ps' : Holder} (hd : Distinct ps) (hc : Change ps ps') : Distinct ps' := by
  unfold Distinct at hd ⊢
  cases hc with
  | same h => rw [h]; exact hd
  | push l r e h h' hf =>
    rw [h'] ; rw [h] at hd
    exact distinct_push hd (hf.imp id fun hu x hx => hu x (by rw [h]; exact hx))
  | swap l r k b c h h' hf =>
    rw [h']
    have hd0 := hd
    rw [h] at hd
    rcases hf with hf | hf
    · rw [List.pairwise_append, List.pairwise_cons] at hd ⊢
      obtain ⟨h1, ⟨h2, h3⟩, h4⟩ := hd
      refine ⟨h1, ⟨?_, h3⟩, ?_⟩
      · intro x hx; simp only [hf]; exact h2 x hx
      · intro x hx y hy
        rcases List.mem_cons.mp hy with rfl | hy
        · simp only [hf]; exact h4 x hx (k, b) (by simp)
        · exact h4 x hx y (by simp [hy])
    · refine distinct_push (distinct_drop hd) (Or.inr fun x hx => hf.2 x ?_)
      rw [h]
      rcases List.mem_append.mp hx with hx | hx
      · exact List.mem_append_left _ hx
      · exact List.mem_append_right _ (List.mem_cons_of_mem _ hx)
  | drop l r e h h' => rw [h']; rw [h] at hd; exact distinct_drop hd
  | both l r d m h l' r' e hm h1 h' hf =>
    rw [h']; rw [h] at hd
    have hd := distinct_drop hd
    rw [hm, h1] at hd
    refine distinct_push hd (hf.imp id fun hu x hx => hu x ?_)
    rw [← h1, ← hm] at hx
    rw [h]
    rcases List.mem_append.mp hx with hx | hx
    · exact List.mem_append_left _ hx
    · exact List.mem_append_right _ (List.mem_cons_of_mem _ hx)
  | clear h => rw [h]; exact hd.sublist List.filter_sublist

theorem received_ok {ps : Holder} {a : Nat} (ha : Fresh ps a) (d : List Byte) : received d a = 0 ∨ Unknown ps (received d a) := by
  unfold received
  split
  · exact Or.inl rfl
  · exact Or.inr ha.2

theorem insert_change {ps : Holder} {p : Payload} {a : Nat} (ha : Fresh ps a) : Change ps (insert ps p a).2 := by
  unfold insert
  split
  · exact .same rfl
  · split
    · split
      · rename_i hany _
        obtain ⟨l, r, q, _, e1, e2⟩ := held_push p.type (fun _ => ⟨received p.data a, p.type, p.data, false⟩) ps (by assumption)
        exact .push l r _ e1 e2 (received_ok ha _)
      · exact .same rfl
    · exact .same rfl

/-- Freeing, and inserting after it. -/
theorem free_insert {ps : Holder} {h : Nat} {p : Payload} {a : Nat} (ha : Fresh ps a) : Change ps (insert (deallocate ps h).2 p a).2 := by
  unfold deallocate
  split
  · exact insert_change ha
  · split
    · rename_i h0 hany
      obtain ⟨l, k, b, r, e, e1, e2, e3, e4⟩ := held_erase hany
      generalize modifyFirst (Pool.has h) (fun p => { p with blocks := eraseFirst h p.blocks }) ps = qs at e4 ⊢
      simp only
      have ha' : Fresh qs a := by
        refine ⟨ha.1, fun x hx => ha.2 x ?_⟩
        rw [e]
        rw [e4] at hx
        split at hx
        · exact hx
        · rcases List.mem_append.mp hx with hx | hx
          · exact List.mem_append_left _ hx
          · exact List.mem_append_right _ (List.mem_cons_of_mem _ hx)
      by_cases hi : b.inbound
      · simp only [hi, ↓reduceIte] at e4
        rw [← e] at e4
        have hu : ∀ n, Unknown qs n → Unknown ps n := fun n hn x hx => hn x (by rw [e4]; exact hx)
        unfold insert
        split
        · exact .same e4
        · split
          · split
            · obtain ⟨l', r', q, _, f1, f2⟩ := held_push p.type (fun _ => ⟨received p.data a, p.type, p.data, false⟩) qs (by assumption)
              exact .push l' r' _ (by rw [← e4, f1]) f2 ((received_ok ha' _).imp id (hu _))
            · exact .same e4
          · exact .same e4
      · simp only [hi, Bool.false_eq_true, ↓reduceIte] at e4
        unfold insert
        split
        · exact .drop l r _ e e4
        · split
          · split
            · obtain ⟨l', r', q, _, f1, f2⟩ := held_push p.type (fun _ => ⟨received p.data a, p.type, p.data, false⟩) qs (by assumption)
              exact .both l r _ _ e l' r' _ e4.symm f1 f2 (received_ok ha _)
            · exact .drop l r _ e e4
          · exact .drop l r _ e e4
    · exact insert_change ha

theorem free_change {ps : Holder} {h : Nat} : Change ps (deallocate ps h).2 := by
  unfold deallocate
  split
  · exact .same rfl
  · split
    · rename_i h0 hany
      obtain ⟨l, k, b, r, e, e1, e2, e3, e4⟩ := held_erase hany
      by_cases hi : b.inbound
      · simp only [hi, ↓reduceIte] at e4; exact .same (by rw [e4, e])
      · simp only [hi, Bool.false_eq_true, ↓reduceIte] at e4; exact .drop l r _ e e4
    · exact .same rfl

theorem deallocate_result (ps : Holder) (h : Nat) : (deallocate ps h).1 = .ok () ∨ (deallocate ps h = (.error .argument, ps) ∧ h ≠ 0 ∧ Unknown ps h) := by
  unfold deallocate
  split
  · exact Or.inl rfl
  · split
    · exact Or.inl rfl
    · rename_i h0 hany
      refine Or.inr ⟨rfl, h0, fun e he ha => hany ((any_has ps h).mpr ⟨e, he, ha⟩)⟩

theorem reply_snd (ps : Holder) (o : Nat) (nc : Bool) (p : Payload) (a : Nat) : (reply ps o nc p a).2 = ps ∨ (reply ps o nc p a).2 = (insert (deallocate ps o).2 p a).2 := by
  unfold reply
  cases typeOf ps o with
  | error c => exact Or.inl rfl
  | wild => exact Or.inl rfl
  | abort => exact Or.inl rfl
  | ok t =>
    simp only
    split
    · exact Or.inl rfl
    · rcases deallocate_result ps o with h | h
      · cases hx : deallocate ps o with
        | mk x y =>
          rw [hx] at h
          simp only at h
          subst h
          exact Or.inr rfl
      · rw [h.1]
        exact Or.inl rfl

theorem replyFail_snd (ps : Holder) (o : Nat) (p : Payload) (a : Nat) : (replyFail ps o p a).2 = ps ∨ (replyFail ps o p a).2 = (insert (deallocate ps o).2 p a).2 := by
  unfold replyFail
  rcases deallocate_result ps o with h | h
  · cases hx : deallocate ps o with
    | mk x y =>
      rw [hx] at h
      simp only at h
      subst h
      simp only
      cases hi : insert y p a with
      | mk u v => cases u <;> exact Or.inr rfl
  · rw [h.1]
    exact Or.inl rfl

theorem step_change {ps : Holder} {op : Op} (hp : op.Possible ps) : Change ps (op.run ps) := by
  cases op with
  | allocate t n a =>
    simp only [Op.run, Pool.allocate]
    split
    · obtain ⟨l, r, q, _, e1, e2⟩ := held_push t (fun p => ⟨a, t, p.kind.fresh n.toNat, false⟩) ps (by assumption)
      exact .push l r _ e1 e2 (Or.inr (hp.2))
    · exact .same rfl
  | reallocate h n a =>
    simp only [Op.run, Pool.reallocate]
    split
    · obtain ⟨l, k, b, r, e, e1, e2, e3, e4⟩ := held_modify (fun k b => { b with addr := a, data := k.resize b.data n.toNat }) (by assumption)
      exact .swap l r k b _ e e4 (hp.imp (fun ha => by rw [e1]; exact ha) id)
    · exact .same rfl
  | mutate h d a =>
    simp only [Op.run, Pool.mutate]
    by_cases hany : ps.any (Pool.has h)
    · obtain ⟨l, k, b, r, e, e1, e2, e3, e4⟩ := held_modify (fun _ b => { b with addr := a, data := d }) hany
      exact .swap l r k b _ e e4 (hp.imp (fun ha => by rw [e1]; exact ha) id)
    · have : ∀ (l : Holder) (f : Pool → Pool), l.any (Pool.has h) = false → modifyFirst (Pool.has h) f l = l := by
        intro l f
        induction l with
        | nil => intro _; rfl
        | cons p l ih =>
          intro hl
          simp only [List.any_cons, Bool.or_eq_false_iff] at hl
          simp only [modifyFirst, hl.1, Bool.false_eq_true, ↓reduceIte, ih hl.2]
      rw [this ps _ (by simpa using hany)]
      exact .same rfl
  | free h => exact free_change
  | called p a =>
    simp only [Op.run, adopt]
    split
    · exact .same rfl
    · split
      · obtain ⟨l, r, q, _, e1, e2⟩ := held_push p.type (fun _ => ⟨received p.data a, p.type, p.data, true⟩) ps (by assumption)
        exact .push l r _ e1 e2 (received_ok hp _)
      · exact .same rfl
  | reply o nc p a =>
    show Change ps (Pool.reply ps o nc p a).2
    rcases reply_snd ps o nc p a with h | h <;> rw [h]
    · exact .same rfl
    · exact free_insert hp
  | replyFail o p a =>
    show Change ps (Pool.replyFail ps o p a).2
    rcases replyFail_snd ps o p a with h | h <;> rw [h]
    · exact .same rfl
    · exact free_insert hp
  | insert p a => exact insert_change hp
  | «return» h n =>
    simp only [Op.run, release]
    split
    · exact .same rfl
    · split
      · exact .same rfl
      · rename_i h0 _ kb hl
        by_cases hany : ps.any (Pool.has h)
        · obtain ⟨l, k, b, r, e, e1, e2, e3, e4⟩ := held_remove hany
          exact .drop l r _ e e4
        · exfalso
          have : Unknown ps h := fun x hx hxa => hany ((any_has ps h).mpr ⟨x, hx, hxa⟩)
          rw [lookup_unknown this] at hl
          cases hl
  | done => exact .clear (held_clear ps)

/-! ## C180 -/

theorem run_distinct {ps ps' : Holder} {ops : List Op} (hr : Run ps ops ps') (hd : Distinct ps) : Distinct ps' := by
  induction hr with
  | nil => exact hd
  | cons hp _ ih => exact ih (change_distinct hd (step_change hp))

theorem start_held {ps : Holder} (hs : Start ps) : held ps = [] := by
  unfold held
  rw [List.flatMap_eq_nil_iff]
  intro p hp
  rw [hs p hp]; rfl

theorem start_distinct {ps : Holder} (hs : Start ps) : Distinct ps := by
  unfold Distinct; rw [start_held hs]; exact List.Pairwise.nil

/-- **C180.** Whatever a process has done: no two of its buffers have the same handle. -/
theorem C180_distinct {ps ps' : Holder} {ops : List Op} (hs : Start ps) (hr : Run ps ops ps') {h : Nat} (h0 : h ≠ 0) {k k' : Kind} {b b' : Block}
    (hb : Holds ps' h k b) (hb' : Holds ps' h k' b') : k = k' ∧ b = b' := by
  have := unique (run_distinct hr (start_distinct hs)) hb.1 hb'.1 (by show b.addr = b'.addr; rw [hb.2, hb'.2]) (by show b.addr ≠ 0; rw [hb.2]; exact h0)
  exact ⟨congrArg Prod.fst this, congrArg Prod.snd this⟩

theorem keep_erase {ps : Holder} {h h' : Nat} {k : Kind} {b : Block} (hne : h' ≠ h) (hb : Holds ps h k b) : Holds (deallocate ps h').2 h k b := by
  unfold deallocate
  split
  · exact hb
  · split
    · rename_i hany
      obtain ⟨l, k', b', r, e, e1, e2, e3, e4⟩ := held_erase hany
      refine ⟨?_, hb.2⟩
      have hm := hb.1
      rw [e4]
      rw [e] at hm
      split
      · exact hm
      · rcases List.mem_append.mp hm with hm | hm
        · exact List.mem_append_left _ hm
        · rcases List.mem_cons.mp hm with hm | hm
          · exfalso; cases hm; exact hne (e1.symm.trans hb.2)
          · exact List.mem_append_right _ hm
    · exact hb

theorem keep_insert {ps : Holder} {p : Payload} {a h : Nat} {k : Kind} {b : Block} (hb : Holds ps h k b) : Holds (insert ps p a).2 h k b := by
  unfold insert
  split
  · exact hb
  · split
    · split
      · obtain ⟨l, r, q, _, e1, e2⟩ := held_push p.type (fun _ => ⟨received p.data a, p.type, p.data, false⟩) ps (by assumption)
        refine ⟨?_, hb.2⟩
        have hm := hb.1
        rw [e1] at hm
        rw [e2]
        rcases List.mem_append.mp hm with hm | hm
        · exact List.mem_append_left _ hm
        · exact List.mem_append_right _ (List.mem_cons_of_mem _ hm)
      · exact hb
    · exact hb

theorem keep_swap {ps : Holder} {h h' : Nat} (hne : h' ≠ h) {k : Kind} {b : Block} (g : Kind → Block → Block) (hb : Holds ps h k b) (hany : ps.any (Pool.has h')) :
    Holds (modifyFirst (Pool.has h') (fun p => { p with blocks := modifyFirst (·.addr == h') (g p.kind) p.blocks }) ps) h k b := by
  obtain ⟨l, k', b', r, e, e1, e2, e3, e4⟩ := held_modify g hany
  refine ⟨?_, hb.2⟩
  have hm := hb.1
  rw [e4]
  rw [e] at hm
  rcases List.mem_append.mp hm with hm | hm
  · exact List.mem_append_left _ hm
  · rcases List.mem_cons.mp hm with hm | hm
    · exfalso; cases hm; exact hne (e1.symm.trans hb.2)
    · exact List.mem_append_right _ (List.mem_cons_of_mem _ hm)

theorem keep {ps : Holder} {op : Op} {h : Nat} {k : Kind} {b : Block} (hb : Holds ps h k b) (hc : ¬ op.Concerns h b) : Holds (op.run ps) h k b := by
  cases op with
  | allocate t n a =>
    simp only [Op.run, Pool.allocate]
    split
    · obtain ⟨l, r, q, _, e1, e2⟩ := held_push t (fun p => ⟨a, t, p.kind.fresh n.toNat, false⟩) ps (by assumption)
      refine ⟨?_, hb.2⟩
      have hm := hb.1
      rw [e1] at hm
      rw [e2]
      rcases List.mem_append.mp hm with hm | hm
      · exact List.mem_append_left _ hm
      · exact List.mem_append_right _ (List.mem_cons_of_mem _ hm)
    · exact hb
  | reallocate h' n a =>
    simp only [Op.run, Pool.reallocate]
    split
    · exact keep_swap hc (fun k b => { b with addr := a, data := k.resize b.data n.toNat }) hb (by assumption)
    · exact hb
  | mutate h' d a =>
    simp only [Op.run, Pool.mutate]
    by_cases hany : ps.any (Pool.has h')
    · exact keep_swap hc (fun _ b => { b with addr := a, data := d }) hb hany
    · have : ∀ (l : Holder) (f : Pool → Pool), l.any (Pool.has h') = false → modifyFirst (Pool.has h') f l = l := by
        intro l f
        induction l with
        | nil => intro _; rfl
        | cons p l ih =>
          intro hl
          simp only [List.any_cons, Bool.or_eq_false_iff] at hl
          simp only [modifyFirst, hl.1, Bool.false_eq_true, ↓reduceIte, ih hl.2]
      rw [this ps _ (by simpa using hany)]
      exact hb
  | free h' => exact keep_erase hc hb
  | called p a =>
    simp only [Op.run, adopt]
    split
    · exact hb
    · split
      · obtain ⟨l, r, q, _, e1, e2⟩ := held_push p.type (fun _ => ⟨received p.data a, p.type, p.data, true⟩) ps (by assumption)
        refine ⟨?_, hb.2⟩
        have hm := hb.1
        rw [e1] at hm
        rw [e2]
        rcases List.mem_append.mp hm with hm | hm
        · exact List.mem_append_left _ hm
        · exact List.mem_append_right _ (List.mem_cons_of_mem _ hm)
      · exact hb
  | reply o nc p a =>
    show Holds (Pool.reply ps o nc p a).2 h k b
    rcases reply_snd ps o nc p a with e | e <;> rw [e]
    · exact hb
    · exact keep_insert (keep_erase hc hb)
  | replyFail o p a =>
    show Holds (Pool.replyFail ps o p a).2 h k b
    rcases replyFail_snd ps o p a with e | e <;> rw [e]
    · exact hb
    · exact keep_insert (keep_erase hc hb)
  | insert p a => exact keep_insert hb
  | «return» h' n =>
    simp only [Op.run, release]
    split
    · exact hb
    · split
      · exact hb
      · rename_i h0 _ kb hl
        by_cases hany : ps.any (Pool.has h')
        · obtain ⟨l, k', b', r, e, e1, e2, e3, e4⟩ := held_remove hany
          refine ⟨?_, hb.2⟩
          have hm := hb.1
          rw [e4]
          rw [e] at hm
          rcases List.mem_append.mp hm with hm | hm
          · exact List.mem_append_left _ hm
          · rcases List.mem_cons.mp hm with hm | hm
            · exfalso; cases hm; exact hc (e1.symm.trans hb.2)
            · exact List.mem_append_right _ hm
        · exfalso
          have : Unknown ps h' := fun x hx hxa => hany ((any_has ps h').mpr ⟨x, hx, hxa⟩)
          rw [lookup_unknown this] at hl
          cases hl
  | done =>
    refine ⟨?_, hb.2⟩
    show (k, b) ∈ held (clear ps)
    rw [held_clear]
    exact List.mem_filter.mpr ⟨hb.1, by simpa [Op.Concerns] using hc⟩

/-- **C180.** A buffer stays as it is, at its handle, until a call is given that handle (or it is the inbound buffer and the service is done), whatever happens with other buffers:
allocations, reallocations, replies, service calls. -/
theorem C180_untouched {ps ps' : Holder} {ops : List Op} (hr : Run ps ops ps') {h : Nat} {k : Kind} {b : Block} (hb : Holds ps h k b) (hc : ∀ op ∈ ops, ¬ op.Concerns h b) :
    Holds ps' h k b := by
  induction hr with
  | nil => exact hb
  | cons _ _ ih => exact ih (keep hb (hc _ (by simp))) fun op ho => hc op (by simp [ho])

/-- **C180.** A buffer that is allocated has a handle that no other has, the memory of its kind, and is not inbound; a type that no pool manages is refused with `TPEITYPE`, and nothing changes. -/
theorem C180_allocate (ps : Holder) (t : String) (n : Int) (a : Nat) :
    (∀ p, ps.find? (Pool.manages t) = some p → allocate ps t n a = (.ok a, (allocate ps t n a).2) ∧ Holds (allocate ps t n a).2 a p.kind ⟨a, t, p.kind.fresh n.toNat, false⟩) ∧
    ((∀ p ∈ ps, t ∉ p.types) → allocate ps t n a = (.error .bufferInput, ps)) := by
  constructor
  · intro p hp
    have hany : ps.any (Pool.manages t) := List.any_eq_true.mpr ⟨p, List.mem_of_find?_eq_some hp, List.find?_some hp⟩
    unfold allocate
    rw [if_pos hany]
    obtain ⟨l, r, q, e, e1, e2⟩ := held_push t (fun p => ⟨a, t, p.kind.fresh n.toNat, false⟩) ps hany
    rw [hp] at e
    cases e
    exact ⟨rfl, by show _ ∈ held _; rw [e2]; simp, rfl⟩
  · intro hn
    unfold allocate
    rw [if_neg]
    intro hs
    obtain ⟨p, hp, hm⟩ := List.any_eq_true.mp hs
    exact hn p hp (by simpa [Pool.manages] using hm)

/-- **C180.** A buffer that is freed is gone, its handle is not known; a buffer that is reallocated has its type, and is at the handle that is given back only. -/
theorem C180_gone {ps : Holder} (hd : Distinct ps) {h : Nat} (h0 : h ≠ 0) {k : Kind} {b : Block} (hb : Holds ps h k b) :
    (b.inbound = false → (deallocate ps h).1 = .ok () ∧ Unknown (deallocate ps h).2 h) ∧
    (∀ n a, a = h ∨ Fresh ps a → (reallocate ps h n a).1 = .ok a ∧ Holds (reallocate ps h n a).2 a k ⟨a, b.type, k.resize b.data n.toNat, b.inbound⟩ ∧ (a ≠ h → Unknown (reallocate ps h n a).2 h)) ∧
    (∀ n, Unknown (release ps h n).2 h) := by
  have hany : ps.any (Pool.has h) := (any_has ps h).mpr ⟨_, hb.1, hb.2⟩
  have hl := lookup_holds hd h0 hb
  have other : ∀ {l r : List (Kind × Block)}, held ps = l ++ (k, b) :: r → ∀ x ∈ l ++ r, x.2.addr ≠ h := by
    intro l r e x hx hxa
    have hd' := hd
    unfold Distinct at hd'
    rw [e, List.pairwise_append, List.pairwise_cons] at hd'
    obtain ⟨_, ⟨h2, _⟩, h4⟩ := hd'
    rcases List.mem_append.mp hx with hx | hx
    · have := h4 x hx (k, b) (by simp) (by rw [hxa]; exact hb.2.symm)
      exact h0 (hxa ▸ this)
    · have := h2 x hx (by rw [hxa]; exact hb.2)
      exact h0 (hb.2 ▸ this)
  refine ⟨?_, ?_, ?_⟩
  · intro hi
    unfold deallocate
    rw [if_neg h0, if_pos hany]
    refine ⟨rfl, ?_⟩
    obtain ⟨l, k', b', r, e, e1, e2, e3, e4⟩ := held_erase hany
    rw [hl] at e3
    cases e3
    simp only [hi, Bool.false_eq_true, ↓reduceIte] at e4
    intro x hx
    simp only at hx
    rw [e4] at hx
    exact other e x hx
  · intro n a ha
    unfold reallocate
    rw [if_pos hany]
    obtain ⟨l, k', b', r, e, e1, e2, e3, e4⟩ := held_modify (fun k b => { b with addr := a, data := k.resize b.data n.toNat }) hany
    rw [hl] at e3
    cases e3
    refine ⟨rfl, ⟨by show _ ∈ held _; rw [e4]; simp, rfl⟩, ?_⟩
    intro hne x hx
    simp only at hx
    rw [e4] at hx
    rcases List.mem_append.mp hx with hx | hx
    · exact other e x (List.mem_append_left _ hx)
    · rcases List.mem_cons.mp hx with hx | hx
      · subst hx; exact hne
      · exact other e x (List.mem_append_right _ hx)
  · intro n
    unfold release
    rw [if_neg h0, hl]
    simp only
    obtain ⟨l, k', b', r, e, e1, e2, e3, e4⟩ := held_remove hany
    rw [hl] at e3
    cases e3
    intro x hx
    rw [e4] at hx
    exact other e x hx

/-- **C180.** Resized X_OCTET and CASUAL_OCTET memory has the size asked for, what was there as far as it goes, and zeros after that. -/
theorem C180_resized (k : Kind) (hk : k = .plain ∨ k = .octet) (d : List Byte) (n : Nat) : (k.resize d n).length = n ∧ ∀ i, i < n → (k.resize d n)[i]? = some (d.getD i 0) := by
  have e : k.resize d n = (d ++ List.replicate (n - d.length) 0).take n := by rcases hk with rfl | rfl <;> rfl
  rw [e]
  refine ⟨by simp; omega, ?_⟩
  intro i hi
  rw [List.getElem?_take_of_lt hi]
  rcases Nat.lt_or_ge i d.length with h | h
  · rw [List.getElem?_append_left h, List.getElem?_eq_getElem h]
    simp [List.getD, List.getElem?_eq_getElem h]
  · rw [List.getElem?_append_right h, List.getElem?_replicate, if_pos (by omega)]
    simp [List.getD, List.getElem?_eq_none h]

/-- The pools for the examples. -/
def pools : Holder := [⟨.plain, ["X_OCTET/", ".json/"], []⟩, ⟨.string, ["CSTRING/"], []⟩, ⟨.record, ["CFIELD/"], []⟩]

example : Start pools ∧ Distinct (Op.run (Op.run pools (.allocate "CSTRING/" 10 7)) (.allocate "X_OCTET/" 3 8)) ∧
    Run pools [.allocate "CSTRING/" 10 7, .allocate "X_OCTET/" 3 8, .free 7] (Op.run (Op.run (Op.run pools (.allocate "CSTRING/" 10 7)) (.allocate "X_OCTET/" 3 8)) (.free 7)) ∧
    Holds (Op.run (Op.run (Op.run pools (.allocate "CSTRING/" 10 7)) (.allocate "X_OCTET/" 3 8)) (.free 7)) 8 .plain ⟨8, "X_OCTET/", [0, 0, 0], false⟩ := by
  refine ⟨by unfold Start; decide +kernel, by unfold Distinct; decide +kernel, ?_, by unfold Holds; decide +kernel⟩
  exact .cons (by simp only [Op.Possible]; unfold Fresh Unknown; decide +kernel)
    (.cons (by simp only [Op.Possible]; unfold Fresh Unknown; decide +kernel) (.cons trivial (.nil _)))

/-! ## C181 -/

/-- **C181.** The buffer a service is called with is inbound: to free it does nothing; when the service is done it is gone, and all other buffers are as they were. -/
theorem C181_inbound (ps : Holder) (p : Payload) (a : Nat) (hn : p.null = false) (q : Pool) (hq : ps.find? (Pool.manages p.type) = some q) (hd : p.data ≠ []) :
    (adopt ps p a).1 = .ok a ∧ Holds (adopt ps p a).2 a q.kind ⟨a, p.type, p.data, true⟩ ∧
    held (clear (adopt ps p a).2) = (held ps).filter fun e => !e.2.inbound := by
  have hany : ps.any (Pool.manages p.type) := List.any_eq_true.mpr ⟨q, List.mem_of_find?_eq_some hq, List.find?_some hq⟩
  obtain ⟨l, r, q', e, e1, e2⟩ := held_push p.type (fun _ => ⟨received p.data a, p.type, p.data, true⟩) ps hany
  rw [hq] at e
  cases e
  have hr : received p.data a = a := by simp [received, hd]
  unfold adopt
  rw [hn, if_neg (by simp), if_pos hany, held_clear]
  simp only [hr] at e2 ⊢
  rw [e2, e1]
  exact ⟨trivial, ⟨by show _ ∈ held _; rw [e2]; simp, rfl⟩, by simp [List.filter_append]⟩

/-- **C181.** To free an inbound buffer does nothing. -/
theorem C181_free {ps : Holder} (hd : Distinct ps) {h : Nat} (h0 : h ≠ 0) {k : Kind} {b : Block} (hb : Holds ps h k b) (hi : b.inbound = true) :
    (deallocate ps h).1 = .ok () ∧ held (deallocate ps h).2 = held ps := by
  have hany : ps.any (Pool.has h) := (any_has ps h).mpr ⟨_, hb.1, hb.2⟩
  unfold deallocate
  rw [if_neg h0, if_pos hany]
  refine ⟨rfl, ?_⟩
  obtain ⟨l, k', b', r, e, e1, e2, e3, e4⟩ := held_erase hany
  rw [lookup_holds hd h0 hb] at e3
  cases e3
  simp only [hi, ↓reduceIte] at e4
  rw [e4, e]

/-- **C181.** When a service is done no inbound buffer is left, and any other buffer is as it was. -/
theorem C181_done (ps : Holder) (h : Nat) (k : Kind) (b : Block) : Holds (clear ps) h k b ↔ Holds ps h k b ∧ b.inbound = false := by
  unfold Holds
  rw [held_clear, List.mem_filter]
  simp only [Bool.not_eq_eq_eq_not, Bool.not_true]
  constructor
  · rintro ⟨⟨a, b⟩, c⟩; exact ⟨⟨a, c⟩, b⟩
  · rintro ⟨⟨a, c⟩, b⟩; exact ⟨⟨a, b⟩, c⟩

/-! ## C182 -/

/-- **C182.** A handle that is not of a buffer is refused with `TPEINVAL` by every call, and nothing changes. -/
theorem C182_unknown {ps : Holder} {h : Nat} (h0 : h ≠ 0) (hu : Unknown ps h) :
    (∀ n a, reallocate ps h n a = (.error .argument, ps)) ∧ deallocate ps h = (.error .argument, ps) ∧ (∀ n, get ps h n = .error .argument) ∧ typeOf ps h = .error .argument ∧
    (∀ n, release ps h n = (.error .argument, ps)) ∧ ∀ nc p a, reply ps h nc p a = (.error .argument, ps) := by
  have ht : typeOf ps h = .error .argument := by unfold typeOf; rw [if_neg h0, lookup_unknown hu]
  refine ⟨?_, ?_, ?_, ht, ?_, ?_⟩
  · intro n a; unfold reallocate; rw [any_unknown hu]; rfl
  · unfold deallocate; rw [if_neg h0, any_unknown hu]; rfl
  · intro n; unfold get; rw [if_neg h0, lookup_unknown hu]
  · intro n; unfold release; rw [if_neg h0, lookup_unknown hu]
  · intro nc p a; unfold reply; rw [ht]

/-- **C182, refuted.** The same for the reply of a service that failed: the exception leaves the function, the process is terminated. -/
theorem C182_fail_refuted : ∃ (ps : Holder) (h : Nat) (p : Payload) (a : Nat), h ≠ 0 ∧ Unknown ps h ∧ Start ps ∧ (replyFail ps h p a).1 = .abort :=
  ⟨pools, 9, ⟨"X_OCTET/", [1]⟩, 7, by decide, by unfold Unknown; decide +kernel, by unfold Start; decide +kernel, by decide +kernel⟩

/-! ## C183 -/

/-- **C183.** Of X_OCTET and the like the given number of bytes is sent, and more than there is is refused with `TPEINVAL`; other buffers are sent as a whole whatever the size given: CSTRING to its NUL. -/
theorem C183_sent {ps : Holder} (hd : Distinct ps) {h : Nat} (h0 : h ≠ 0) {k : Kind} {b : Block} (hb : Holds ps h k b) (n : Int) :
    (k = .plain → 0 ≤ n → n ≤ b.data.length → get ps h n = .ok ⟨b.type, b.data.take n.toNat⟩) ∧
    (k = .plain → b.data.length < n → get ps h n = .error .argument) ∧
    (k = .octet ∨ k = .record → get ps h n = .ok ⟨b.type, b.data⟩) ∧
    (k = .string → 0 ∈ b.data → get ps h n = .ok ⟨b.type, cstr b.data ++ [0]⟩) := by
  have hl := lookup_holds hd h0 hb
  refine ⟨?_, ?_, ?_, ?_⟩
  · rintro rfl h1 h2
    unfold get
    rw [if_neg h0, hl]
    simp only [Kind.transport]
    rw [if_neg (by omega)]
    simp only [prefixOf, h1, h2, and_self, ↓reduceIte]
  · rintro rfl h1
    unfold get
    rw [if_neg h0, hl]
    simp only [Kind.transport]
    rw [if_pos (by omega)]
  · intro hk
    unfold get
    rw [if_neg h0, hl]
    have ht : k.transport b.data n = .ok b.data.length := by rcases hk with rfl | rfl <;> rfl
    simp only [ht, prefixOf]
    rw [if_pos ⟨by omega, by omega⟩]
    simp
  · rintro rfl hz
    have hstr : rdStr b.data 0 = some (cstr b.data) := by
      unfold rdStr; exact if_pos ⟨by omega, hz⟩
    have hpre : cstr b.data ++ [0] <+: b.data := by
      unfold cstr
      have key : ∀ l : List Byte, (0 : Byte) ∈ l → l.takeWhile (· ≠ 0) ++ [0] <+: l := by
        intro l
        induction l with
        | nil => intro h; cases h
        | cons x l ih =>
          intro hx
          by_cases h : x = 0
          · subst h; exact ⟨l, by simp⟩
          · rw [List.takeWhile_cons_of_pos (by simpa using h), List.cons_append]
            have : (0 : Byte) ∈ l := by
              rcases List.mem_cons.mp hx with e | e
              · exact absurd e.symm h
              · exact e
            exact (List.prefix_cons_inj x).mpr (ih this)
      exact key b.data hz
    have hle := hpre.length_le
    rw [List.length_append] at hle
    simp only [List.length_cons, List.length_nil, Nat.zero_add] at hle
    unfold get
    rw [if_neg h0, hl]
    simp only [Kind.transport, Str.transport, hstr, Option.map_some, Got.of, prefixOf]
    rw [if_pos ⟨by omega, by omega⟩]
    have : b.data.take (((cstr b.data).length + 1 : Nat) : Int).toNat = cstr b.data ++ [0] := by
      rw [Int.toNat_natCast]
      have := List.prefix_iff_eq_take.mp hpre
      rw [List.length_append] at this
      exact this.symm
    simp only [this]

/-- **C183, refuted.** A size that is not within the buffer is refused: a negative one is not, and memory outside of the buffer is read (`tpcall`) or the outcome is undefined (`tpreturn`). -/
theorem C183_negative_refuted : ∃ (ps ps' : Holder) (ops : List Op), Start ps ∧ Run ps ops ps' ∧ get ps' 7 (-1) = .wild ∧ (release ps' 7 (-1)).1 = .wild :=
  ⟨pools, Op.run pools (.allocate "X_OCTET/" 3 7), [.allocate "X_OCTET/" 3 7], by unfold Start; decide +kernel,
    .cons (by simp only [Op.Possible]; unfold Fresh Unknown; decide +kernel) (.nil _), by decide +kernel, by decide +kernel⟩

/-! ## C184 -/

/-- **C184, what holds.** A reply that is not empty, of a type that there is a pool for, into a buffer of the user (or null): the user gets a handle to a buffer with what was replied and its size.
With `TPNOCHANGE` and another type it is refused with `TPEOTYPE`, and nothing changes. -/
theorem C184_reply_partial {ps : Holder} {o : Nat} {t : String} (ht : typeOf ps o = .ok t) (nc : Bool) (p : Payload) (a : Nat) :
    (nc = true → p.type ≠ t → reply ps o nc p a = (.error .bufferOutput, ps)) ∧
    (∀ q, (nc = true → p.type = t) → p.null = false → p.data ≠ [] → ps.find? (Pool.manages p.type) = some q → (q.kind = .string → 0 ∈ p.data) →
      (reply ps o nc p a).1 = .ok (a, p.data.length) ∧ Holds (reply ps o nc p a).2 a q.kind ⟨a, p.type, p.data, false⟩) := by
  constructor
  · intro hnc hne
    unfold reply
    rw [ht]
    simp [hnc, hne]
  · intro q hnc hnull hdata hq hstr
    have hcond : (nc && p.type != t) = false := by
      cases nc with
      | false => rfl
      | true => simp [hnc rfl]
    have hsh : shape (deallocate ps o).2 = shape ps := by
      unfold deallocate
      split
      · rfl
      · split
        · exact shape_modify (Pool.has o) (fun p => { p with blocks := eraseFirst o p.blocks }) (fun _ => ⟨rfl, rfl⟩) ps
        · rfl
    have hok : (deallocate ps o).1 = .ok () := by
      rcases deallocate_result ps o with h | h
      · exact h
      · exfalso
        have := (C182_unknown h.2.1 h.2.2).2.2.2.1
        rw [ht] at this; cases this
    have hred : reply ps o nc p a = insert (deallocate ps o).2 p a := by
      unfold reply
      rw [ht]
      simp only [hcond, Bool.false_eq_true, ↓reduceIte]
      cases hx : deallocate ps o with
      | mk x y =>
        rw [hx] at hok
        simp only at hok
        subst hok
        rfl
    rw [hred]
    obtain ⟨m1, m2⟩ := manages_shape hsh p.type
    generalize (deallocate ps o).2 = qs at m1 m2
    have hany : qs.any (Pool.manages p.type) := by
      rw [m1]; exact List.any_eq_true.mpr ⟨q, List.mem_of_find?_eq_some hq, List.find?_some hq⟩
    obtain ⟨l, r, q', e, e1, e2⟩ := held_push p.type (fun _ => ⟨received p.data a, p.type, p.data, false⟩) qs hany
    have hkind : q'.kind = q.kind := by
      rw [e, hq] at m2; simpa using m2
    have hv : valid qs p = true := by
      unfold valid
      rw [e]
      simp only [decide_eq_true_eq, hkind]
      exact hstr
    have hr : received p.data a = a := by simp [received, hdata]
    unfold insert
    rw [hnull, if_neg (by simp), if_pos hany, if_pos hv]
    simp only [hr] at e2 ⊢
    refine ⟨trivial, ?_, rfl⟩
    show _ ∈ held _
    rw [e2, hkind]
    simp

/-- **C184, refuted.** If `tpcall` fails the buffer of the user is as it was: with a reply of a type that the caller has no pool for it has been freed before that is found out, and the handle that the user
has is not valid. If the service failed (`TPESVCFAIL`) the process is terminated. -/
theorem C184_type_refuted : ∃ (ps ps' : Holder) (ops : List Op) (p : Payload), Start ps ∧ Run ps ops ps' ∧ Holds ps' 7 .plain ⟨7, "X_OCTET/", [0, 0, 0], false⟩ ∧
    (reply ps' 7 false p 8).1 = .error .bufferInput ∧ Unknown (reply ps' 7 false p 8).2 7 ∧ (replyFail ps' 7 p 8).1 = .abort :=
  ⟨pools, Op.run pools (.allocate "X_OCTET/" 3 7), [.allocate "X_OCTET/" 3 7], ⟨"CORDER/", [1]⟩, by unfold Start; decide +kernel,
    .cons (by simp only [Op.Possible]; unfold Fresh Unknown; decide +kernel) (.nil _), by unfold Holds; decide +kernel, by decide +kernel, by unfold Unknown; decide +kernel, by decide +kernel⟩

/-- **C184, refuted.** An empty reply of a type gives the user an empty buffer of that type: the user gets null, and the buffer stays in the pool, with no handle to free it by. -/
theorem C184_empty_refuted : ∃ (ps ps' : Holder) (ops : List Op), Start ps ∧ Run ps ops ps' ∧ Holds ps' 7 .plain ⟨7, "X_OCTET/", [0, 0, 0], false⟩ ∧
    (reply ps' 7 false ⟨"X_OCTET/", []⟩ 8).1 = .ok (0, 0) ∧ held (reply ps' 7 false ⟨"X_OCTET/", []⟩ 8).2 = [(.plain, ⟨0, "X_OCTET/", [], false⟩)] ∧
    typeOf (reply ps' 7 false ⟨"X_OCTET/", []⟩ 8).2 0 = .ok "NULL" :=
  ⟨pools, Op.run pools (.allocate "X_OCTET/" 3 7), [.allocate "X_OCTET/" 3 7], by unfold Start; decide +kernel,
    .cons (by simp only [Op.Possible]; unfold Fresh Unknown; decide +kernel) (.nil _), by unfold Holds; decide +kernel, by decide +kernel, by decide +kernel, by decide +kernel⟩

/-- **C184, refuted.** No number of calls frees such a buffer: whatever the process does with the handles it has (not null), it stays. -/
theorem C184_leak_refuted {ps ps' : Holder} {ops : List Op} (hr : Run ps ops ps') {k : Kind} {t : String} (hb : (k, ⟨0, t, [], false⟩) ∈ held ps)
    (hc : ∀ op ∈ ops, ∀ h, (∃ n a, op = .reallocate h n a) ∨ (∃ d a, op = .mutate h d a) → h ≠ 0) : (k, ⟨0, t, [], false⟩) ∈ held ps' := by
  induction hr with
  | nil => exact hb
  | cons hp hrest ih =>
    rename_i qs op ops qs'
    refine ih ?_ fun op' ho => hc op' (by simp [ho])
    have hb0 : Holds qs 0 k ⟨0, t, [], false⟩ := ⟨hb, rfl⟩
    have hfree : Holds (deallocate qs 0).2 0 k ⟨0, t, [], false⟩ := by unfold deallocate; exact hb0
    by_cases hcon : op.Concerns 0 ⟨0, t, [], false⟩
    · cases op with
      | reallocate h n a => exact absurd hcon (hc _ (by simp) h (Or.inl ⟨n, a, rfl⟩))
      | mutate h d a => exact absurd hcon (hc _ (by simp) h (Or.inr ⟨d, a, rfl⟩))
      | free h => cases hcon; exact hfree.1
      | reply o nc p a =>
        cases hcon
        show _ ∈ held (Pool.reply qs 0 nc p a).2
        rcases reply_snd qs 0 nc p a with e | e <;> rw [e]
        · exact hb
        · exact (keep_insert hfree).1
      | replyFail o p a =>
        cases hcon
        show _ ∈ held (Pool.replyFail qs 0 p a).2
        rcases replyFail_snd qs 0 p a with e | e <;> rw [e]
        · exact hb
        · exact (keep_insert hfree).1
      | «return» h n => cases hcon; exact hb
      | done => cases hcon
      | allocate t n a => cases hcon
      | called p a => cases hcon
      | insert p a => cases hcon
    · exact (keep hb0 hcon).1

end Casual.Buffer.Pool
