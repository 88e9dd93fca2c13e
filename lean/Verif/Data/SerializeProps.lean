import Verif.Data.Serialize
/-!
# What is written is what is read

C36: a value written to an archive and read into a fresh object is the same value, and the reader is where the writer ended; with the network archive
on any two hosts. C71: the content the target has before does not matter (refuted). C73: a message that is cut off is never taken for a message.
-/
namespace Casual.Data

/-! ## Specification -/

/-- The values a program can have: containers have less than 2^63 elements, and no two entries of a map (elements of a set) with the same key. -/
def Ty.Ok : (t : Ty) → t.Val → Prop
  | .bytes, v => (show List Byte from v).length < 2 ^ 63
  | .seq t, v => (show List t.Val from v).length < 2 ^ 63 ∧ ∀ x ∈ (show List t.Val from v), t.Ok x
  | .map k w, v => (show List (k.Val × w.Val) from v).length < 2 ^ 63 ∧ ((show List (k.Val × w.Val) from v).map Prod.fst).Nodup ∧
      ∀ e ∈ (show List (k.Val × w.Val) from v), k.Ok e.1 ∧ w.Ok e.2
  | .set t, v => (show List t.Val from v).length < 2 ^ 63 ∧ (show List t.Val from v).Nodup ∧ ∀ x ∈ (show List t.Val from v), t.Ok x
  | .opt t, v => ∀ x, (show Option t.Val from v) = some x → t.Ok x
  | .pair a b, v => a.Ok (show a.Val × b.Val from v).1 ∧ b.Ok (show a.Val × b.Val from v).2
  | .tuple n t, v => n < 2 ^ 63 ∧ t.Ok v
  | _, _ => True

/-- Types without optionals, maps and sets (other than as entries of something that is read into a fresh object). -/
def Ty.Plain : Ty → Prop
  | .seq t => t.Plain
  | .map _ _ => False
  | .set _ => False
  | .opt _ => False
  | .pair a b => a.Plain ∧ b.Plain
  | .tuple _ t => t.Plain
  | _ => True

/-- A writer and a reader that understand each other. -/
def Agree (p : Policy) (h1 h2 : Host) : Prop := p = .network ∨ h1 = h2

/-! ## Numbers -/

@[simp] theorem putNum_length (p : Policy) (h : Host) (w n : Nat) : (putNum p h w n).length = w := by cases p <;> simp [putNum]

theorem getBytes_append {n : Nat} {l r : List Byte} (hl : l.length = n) : getBytes n (l ++ r) = some (l, r) := by
  subst hl; simp [getBytes]

theorem getNum_putNum {p : Policy} {h1 h2 : Host} (ha : Agree p h1 h2) {w n : Nat} (hn : n < 256 ^ w) (r : List Byte) :
    getNum p h2 w (putNum p h1 w n ++ r) = some (n, r) := by
  unfold getNum
  rw [getBytes_append (putNum_length p h1 w n)]
  cases p with
  | network => simp [putNum, mem_hton, hton_ofMem h2 hn]
  | native =>
    obtain rfl : h1 = h2 := ha.resolve_left (by decide)
    simp [putNum, ofMem_mem h1 hn]

theorem getSize_putSize {p : Policy} {h1 h2 : Host} (ha : Agree p h1 h2) {n : Nat} (hn : n < 2 ^ 63) (r : List Byte) :
    getSize p h2 (putSize p h1 n ++ r) = some (n, r) :=
  getNum_putNum ha (by have : (256 : Nat) ^ 8 = 2 ^ 64 := by decide
                       omega) r

theorem getBool_put {p : Policy} {h1 h2 : Host} (ha : Agree p h1 h2) (b : Bool) (r : List Byte) :
    getBool p h2 (putNum p h1 1 (if b then 1 else 0) ++ r) = some (b, r) := by
  unfold getBool
  rw [getNum_putNum ha (by cases b <;> decide)]
  cases p <;> cases b <;> rfl

/-! ## Loops -/

theorem readEach_write {α : Type} {f : α → List Byte → Option (α × List Byte)} {g : α → List Byte} :
    ∀ (olds vs : List α) (r : List Byte), olds.length = vs.length → (∀ o ∈ olds, ∀ v ∈ vs, ∀ r, f o (g v ++ r) = some (v, r)) →
      readEach f olds (vs.flatMap g ++ r) = some (vs, r)
  | [], [], _, _, _ => rfl
  | o :: os, v :: vs, r, hl, hf => by
    rw [List.flatMap_cons, List.append_assoc, readEach, hf o (by simp) v (by simp)]
    simp only [Option.bind_some]
    rw [readEach_write os vs r (by simpa using hl) (fun o' h1 v' h2 => hf o' (by simp [h1]) v' (by simp [h2]))]
    rfl

theorem resize_length {α : Type} (n : Nat) (d : α) (l : List α) : (resize n d l).length = n := by
  simp [resize]; omega

theorem resize_nil {α : Type} (n : Nat) (d : α) : resize n d [] = List.replicate n d := by simp [resize]

theorem readInto_write {ε κ : Type} [DecidableEq κ] {key : ε → κ} {f : List Byte → Option (ε × List Byte)} {g : ε → List Byte} :
    ∀ (es m : List ε) (r : List Byte), (∀ e ∈ es, ∀ r, f (g e ++ r) = some (e, r)) → ((m ++ es).map key).Nodup →
      readInto key f es.length m (es.flatMap g ++ r) = some (m ++ es, r)
  | [], m, r, _, _ => by simp [readInto]
  | e :: es, m, r, hf, hn => by
    rw [List.flatMap_cons, List.append_assoc, List.length_cons, readInto, hf e (by simp)]
    simp only [Option.bind_some]
    have hne : ¬ key e ∈ m.map key := by
      rw [List.map_append, List.nodup_append] at hn
      intro h
      exact hn.2.2 _ h (key e) (by simp) rfl
    rw [insertEntry, if_neg hne, readInto_write es (m ++ [e]) r (fun e' h => hf e' (by simp [h])) (by simpa using hn)]
    simp

/-! ## C36 -/

theorem getString_put {p : Policy} {h1 h2 : Host} (ha : Agree p h1 h2) {v : List Byte} (hv : v.length < 2 ^ 63) (r : List Byte) :
    getString p h2 (putBytes p h1 v ++ r) = some (v, r) := by
  rw [putBytes, getString, List.append_assoc, getSize_putSize ha hv]
  simp only [Option.bind_some, if_pos hv]
  exact getBytes_append rfl

theorem getFixed_put {n : Nat} (v : { l : List Byte // l.length = n }) (r : List Byte) : getFixed n (v.val ++ r) = some (v, r) := by
  have hl := v.property
  rw [getFixed, dif_pos (by rw [List.length_append]; omega)]
  rw [Option.some.injEq, Prod.mk.injEq]
  exact ⟨Subtype.ext (List.take_left' hl), List.drop_left' hl⟩

theorem getSeq_put {α : Type} {p : Policy} {h1 h2 : Host} (ha : Agree p h1 h2) {f : α → List Byte → Option (α × List Byte)} {g : α → List Byte} {d : α}
    {old v : List α} (hv : v.length < 2 ^ 63) (r : List Byte) (hf : ∀ o ∈ resize v.length d old, ∀ x ∈ v, ∀ r, f o (g x ++ r) = some (x, r)) :
    getSeq p h2 f d old (putAll p h1 g v ++ r) = some (v, r) := by
  rw [putAll, getSeq, List.append_assoc, getSize_putSize ha hv]
  simp only [Option.bind_some, if_pos hv]
  exact readEach_write _ _ r (resize_length _ _ _) hf

theorem getInto_put {ε κ : Type} [DecidableEq κ] {p : Policy} {h1 h2 : Host} (ha : Agree p h1 h2) {key : ε → κ} {f : List Byte → Option (ε × List Byte)}
    {g : ε → List Byte} {v : List ε} (hv : v.length < 2 ^ 63) (hn : (v.map key).Nodup) (r : List Byte) (hf : ∀ x ∈ v, ∀ r, f (g x ++ r) = some (x, r)) :
    getInto p h2 key f [] (putAll p h1 g v ++ r) = some (v, r) := by
  rw [putAll, getInto, List.append_assoc, getSize_putSize ha hv]
  simp only [Option.bind_some, rounds, if_pos hv]
  exact readInto_write v [] r hf hn

theorem getPair_put {α β : Type} {f : List Byte → Option (α × List Byte)} {g : List Byte → Option (β × List Byte)} {x y : List Byte} {a : α} {b : β} {r : List Byte}
    (hf : f (x ++ (y ++ r)) = some (a, y ++ r)) (hg : g (y ++ r) = some (b, r)) : getPair f g (x ++ y ++ r) = some ((a, b), r) := by
  simp [getPair, hf, hg]

theorem getTuple_put {α : Type} {p : Policy} {h1 h2 : Host} (ha : Agree p h1 h2) {n : Nat} (hn : n < 2 ^ 63) {f : List Byte → Option (α × List Byte)} {x r : List Byte} {a : α}
    (hf : f (x ++ r) = some (a, r)) : getTuple p h2 n f (putSize p h1 n ++ x ++ r) = some (a, r) := by
  rw [getTuple, List.append_assoc, getSize_putSize ha hn]
  simp [hf]

theorem getOpt_put {α : Type} {p : Policy} {h1 h2 : Host} (ha : Agree p h1 h2) {f : List Byte → Option (α × List Byte)} {g : α → List Byte} {v : Option α} (r : List Byte)
    (hf : ∀ x, v = some x → ∀ r, f (g x ++ r) = some (x, r)) : getOpt p h2 f none (putOpt p h1 g v ++ r) = some (v, r) := by
  cases v with
  | none => rw [putOpt, getOpt, putBool, getBool_put ha]; rfl
  | some x =>
    rw [putOpt, getOpt, List.append_assoc, putBool, getBool_put ha]
    simp [hf x rfl]

/-- Reading into a fresh object, or into any object if the type is plain. -/
theorem read_write {p : Policy} {h1 h2 : Host} (ha : Agree p h1 h2) :
    ∀ (t : Ty) (old v : t.Val) (r : List Byte), t.Ok v → (old = t.fresh ∨ t.Plain) → read p h2 t old (write p h1 t v ++ r) = some (v, r)
  | .bool, _, v, r, _, _ => getBool_put ha v r
  | .num w, _, v, r, _, _ => by
    have hlt := (v : Fin (256 ^ w)).isLt
    show (getNum p h2 w (putNum p h1 w (v : Fin (256 ^ w)).val ++ r)).map _ = _
    rw [getNum_putNum ha hlt]
    exact congrArg (fun x => some (x, r)) (show toNum w (v : Fin (256 ^ w)).val = (v : Fin (256 ^ w)) from Fin.ext (Nat.mod_eq_of_lt hlt))
  | .bytes, _, _, r, hok, _ => getString_put ha hok r
  | .fixed _, _, v, r, _, _ => getFixed_put v r
  | .seq t, old, v, r, hok, hold => getSeq_put ha hok.1 r fun o ho x hx r' => read_write ha t o x r' (hok.2 x hx) <| by
      rcases hold with rfl | hp
      · left
        have ho : o ∈ resize (List.length (α := t.Val) v) t.fresh [] := ho
        rw [resize_nil] at ho
        exact List.eq_of_mem_replicate ho
      · exact .inr hp
  | .map k w, old, v, r, hok, hold => by
    obtain rfl : old = Ty.fresh (.map k w) := hold.resolve_right (fun h => h)
    refine getInto_put (ε := k.Val × w.Val) ha hok.1 hok.2.1 r fun e he r' => ?_
    exact getTuple_put ha (by decide) (getPair_put (read_write ha k _ _ _ (hok.2.2 e he).1 (.inl rfl)) (read_write ha w _ _ _ (hok.2.2 e he).2 (.inl rfl)))
  | .set t, old, v, r, hok, hold => by
    obtain rfl : old = Ty.fresh (.set t) := hold.resolve_right (fun h => h)
    exact getInto_put (ε := t.Val) (key := id) ha hok.1 (by rw [List.map_id]; exact hok.2.1) r fun e he r' => read_write ha t _ e r' (hok.2.2 e he) (.inl rfl)
  | .opt t, old, v, r, hok, hold => by
    obtain rfl : old = Ty.fresh (.opt t) := hold.resolve_right (fun h => h)
    exact getOpt_put (α := t.Val) ha r fun x hx r' => read_write ha t _ x r' (hok x hx) (.inl rfl)
  | .unit, _, _, _, _, _ => rfl
  | .pair a b, _, _, _, hok, hold =>
    getPair_put (read_write ha a _ _ _ hok.1 (hold.imp (fun h => by rw [h]; rfl) (·.1))) (read_write ha b _ _ _ hok.2 (hold.imp (fun h => by rw [h]; rfl) (·.2)))
  | .tuple _ t, old, v, r, hok, hold => getTuple_put ha hok.1 (read_write ha t old v r hok.2 hold)

/-- Round trip in the native archive, on one host. -/
theorem C36_native (h : Host) (t : Ty) (v : t.Val) (hv : t.Ok v) (rest : List Byte) :
    read .native h t t.fresh (write .native h t v ++ rest) = some (v, rest) :=
  read_write (.inr rfl) t _ v rest hv (.inl rfl)

/-- Round trip in the network archive: written on one host, read on another. -/
theorem C36_network (h1 h2 : Host) (t : Ty) (v : t.Val) (hv : t.Ok v) (rest : List Byte) :
    read .network h2 t t.fresh (write .network h1 t v ++ rest) = some (v, rest) :=
  read_write (.inl rfl) t _ v rest hv (.inl rfl)

theorem putNum_network (h1 h2 : Host) (w n : Nat) : putNum .network h1 w n = putNum .network h2 w n := by simp [putNum, mem_hton]

theorem putAll_network {α : Type} (h1 h2 : Host) {f g : α → List Byte} (he : f = g) (v : List α) : putAll .network h1 f v = putAll .network h2 g v := by
  rw [he, putAll, putAll, putSize, putSize, putNum_network h1 h2]

theorem append_congr {a b c d : List Byte} (h1 : a = b) (h2 : c = d) : a ++ c = b ++ d := by rw [h1, h2]

/-- What is on the wire does not depend on the host. -/
theorem C36_wire (h1 h2 : Host) : ∀ (t : Ty) (v : t.Val), write .network h1 t v = write .network h2 t v
  | .bool, _ => putNum_network ..
  | .num _, _ => putNum_network ..
  | .bytes, v => show putNum .network h1 8 (List.length (α := Byte) v) ++ _ = putNum .network h2 8 (List.length (α := Byte) v) ++ _ by rw [putNum_network h1 h2]
  | .fixed _, _ => rfl
  | .seq t, v => putAll_network (α := t.Val) h1 h2 (funext (C36_wire h1 h2 t)) v
  | .map k w, v => putAll_network (α := k.Val × w.Val) h1 h2 (funext fun e => by
      rw [putEntry, putEntry, putSize, putSize, putNum_network h1 h2, C36_wire h1 h2 k, C36_wire h1 h2 w]) v
  | .set t, v => putAll_network (α := t.Val) h1 h2 (funext (C36_wire h1 h2 t)) v
  | .opt t, v => show putOpt .network h1 (write .network h1 t) (show Option t.Val from v) = putOpt .network h2 (write .network h2 t) v by
      rw [funext (C36_wire h1 h2 t)]
      cases (show Option t.Val from v) with
      | none => exact putNum_network ..
      | some x => rw [putOpt, putOpt, putBool, putBool, putNum_network h1 h2]
  | .unit, _ => rfl
  | .pair a b, _ => append_congr (C36_wire h1 h2 a _) (C36_wire h1 h2 b _)
  | .tuple _ t, v => append_congr (putNum_network ..) (C36_wire h1 h2 t v)

/-- No two values look the same, and no value looks like the beginning of another. -/
theorem C36_injective (p : Policy) (h : Host) (t : Ty) (v w : t.Val) (hv : t.Ok v) (hw : t.Ok w) (r s : List Byte)
    (he : write p h t v ++ r = write p h t w ++ s) : v = w ∧ r = s := by
  have h1 := read_write (p := p) (h1 := h) (h2 := h) (.inr rfl) t _ v r hv (.inl rfl)
  have h2 := read_write (p := p) (h1 := h) (h2 := h) (.inr rfl) t _ w s hw (.inl rfl)
  rw [he, h2] at h1
  simp only [Option.some.injEq, Prod.mk.injEq] at h1
  exact ⟨h1.1.symm, h1.2.symm⟩

/-! ## C71: the content of the target -/

/-- Refuted: an optional that has a value keeps it when "no value" is read. -/
theorem C71_target_refuted : ¬ ∀ (p : Policy) (h : Host) (t : Ty) (old v : t.Val) (rest : List Byte), t.Ok old → t.Ok v →
    read p h t old (write p h t v ++ rest) = some (v, rest) := by
  intro h
  have := h .native .little (.opt (.num 1)) (some (7 : Fin 256) : Option (Fin (256 ^ 1))) (none : Option (Fin (256 ^ 1))) [] (fun _ _ => trivial) (fun _ h => by cases h)
  revert this
  decide +kernel

/-- So does a map: the entries are there still. -/
theorem C71_map_refuted : ¬ ∀ (p : Policy) (h : Host) (k w : Ty) (old v : (Ty.map k w).Val) (rest : List Byte), (Ty.map k w).Ok old → (Ty.map k w).Ok v →
    read p h (.map k w) old (write p h (.map k w) v ++ rest) = some (v, rest) := by
  intro h
  have := h .native .little (.num 1) .bool ([((7 : Fin 256), true)] : List (Fin (256 ^ 1) × Bool)) ([((7 : Fin 256), false)] : List (Fin (256 ^ 1) × Bool)) []
    (by refine ⟨by decide, by decide +kernel, fun _ _ => ⟨trivial, trivial⟩⟩) (by refine ⟨by decide, by decide +kernel, fun _ _ => ⟨trivial, trivial⟩⟩)
  revert this
  decide +kernel

/-- Types without optionals, maps and sets. -/
theorem C71_target_partial (p : Policy) (h : Host) (t : Ty) (hp : t.Plain) (old v : t.Val) (hv : t.Ok v) (rest : List Byte) :
    read p h t old (write p h t v ++ rest) = some (v, rest) :=
  read_write (.inr rfl) t old v rest hv (.inr hp)

/-! ## C73: messages that are cut off -/

theorem getBytes_more {n : Nat} {bs l r : List Byte} (h : getBytes n bs = some (l, r)) (q : List Byte) : getBytes n (bs ++ q) = some (l, r ++ q) := by
  unfold getBytes at *
  split at h
  · rename_i hn
    simp only [Option.some.injEq, Prod.mk.injEq] at h
    rw [if_pos (by simp; omega), List.take_append_of_le_length hn, List.drop_append_of_le_length hn, h.1, h.2]
  · cases h

theorem getNum_more {p : Policy} {h : Host} {w n : Nat} {bs r : List Byte} (hg : getNum p h w bs = some (n, r)) (q : List Byte) :
    getNum p h w (bs ++ q) = some (n, r ++ q) := by
  unfold getNum at *
  cases hb : getBytes w bs with
  | none => rw [hb] at hg; cases hg
  | some x =>
    rw [hb] at hg
    obtain ⟨l, r'⟩ := x
    simp only [Option.map_some, Option.some.injEq, Prod.mk.injEq] at hg
    rw [getBytes_more hb q]
    simp [hg.1, hg.2]

theorem getBool_more {p : Policy} {h : Host} {b : Bool} {bs r : List Byte} (hg : getBool p h bs = some (b, r)) (q : List Byte) :
    getBool p h (bs ++ q) = some (b, r ++ q) := by
  unfold getBool at *
  cases hb : getNum p h 1 bs with
  | none => rw [hb] at hg; cases hg
  | some x =>
    obtain ⟨n, r'⟩ := x
    rw [hb] at hg
    rw [getNum_more hb q]
    simp only [Option.bind_some] at hg ⊢
    cases p with
    | network => simp only [Option.some.injEq, Prod.mk.injEq] at hg ⊢; exact ⟨hg.1, by rw [hg.2]⟩
    | native =>
      simp only at hg ⊢
      split at hg
      · rename_i h1; simp only [Option.some.injEq, Prod.mk.injEq] at hg; rw [if_pos h1, hg.1, hg.2]
      · rename_i h1
        rw [if_neg h1]
        split at hg
        · rename_i h2; simp only [Option.some.injEq, Prod.mk.injEq] at hg; rw [if_pos h2, hg.1, hg.2]
        · cases hg

/-- What a reader does with more bytes, once it has accepted some: the same, and leaves them. -/
def Stable {α : Type} (f : List Byte → Option (α × List Byte)) : Prop := ∀ bs v r q, f bs = some (v, r) → f (bs ++ q) = some (v, r ++ q)

theorem stable_bind {α β : Type} {f : List Byte → Option (α × List Byte)} {g : α → List Byte → Option (β × List Byte)} (hf : Stable f) (hg : ∀ a, Stable (g a)) :
    Stable fun bs => (f bs).bind fun (x : α × List Byte) => g x.1 x.2 := by
  intro bs v r q h
  cases hb : f bs with
  | none => simp [hb] at h
  | some x =>
    obtain ⟨a, s⟩ := x
    simp only [hb, Option.bind_some] at h
    simp only [hf _ _ _ q hb, Option.bind_some]
    exact hg a _ _ _ q h

theorem stable_map {α β : Type} {f : List Byte → Option (α × List Byte)} {g : α → β} (hf : Stable f) :
    Stable fun bs => (f bs).map fun (x : α × List Byte) => (g x.1, x.2) := by
  intro bs v r q h
  cases hb : f bs with
  | none => simp [hb] at h
  | some x =>
    obtain ⟨a, s⟩ := x
    simp only [hb, Option.map_some, Option.some.injEq, Prod.mk.injEq] at h
    simp [hf _ _ _ q hb, h.1, h.2]

theorem stable_ite {α : Type} {c : Prop} [Decidable c] {f : List Byte → Option (α × List Byte)} (hf : Stable f) : Stable fun bs => if c then f bs else none := by
  intro bs v r q h
  by_cases hc : c
  · simp only [hc, if_true] at h ⊢; exact hf _ _ _ q h
  · simp [hc] at h

theorem stable_readEach {α : Type} {f : α → List Byte → Option (α × List Byte)} (hf : ∀ a, Stable (f a)) : ∀ l, Stable (readEach f l)
  | [] => by intro bs v r q h; simp only [readEach, Option.some.injEq, Prod.mk.injEq] at h ⊢; exact ⟨h.1, by rw [h.2]⟩
  | x :: xs => stable_bind (hf x) fun y => stable_map (g := fun ys => y :: ys) (stable_readEach hf xs)

theorem stable_readInto {ε κ : Type} [DecidableEq κ] {key : ε → κ} {f : List Byte → Option (ε × List Byte)} (hf : Stable f) : ∀ n m, Stable (readInto key f n m)
  | 0, m => by intro bs v r q h; simp only [readInto, Option.some.injEq, Prod.mk.injEq] at h ⊢; exact ⟨h.1, by rw [h.2]⟩
  | n + 1, m => stable_bind hf fun e => stable_readInto hf n (insertEntry key m e)

theorem stable_size (p : Policy) (h : Host) : Stable (getSize p h) := fun _ _ _ q hb => getNum_more hb q

theorem stable_fixed (n : Nat) : Stable (getFixed n) := by
  intro bs v r q hb
  unfold getFixed at hb ⊢
  split at hb
  · rename_i hn
    simp only [Option.some.injEq, Prod.mk.injEq] at hb
    rw [dif_pos (by rw [List.length_append]; omega)]
    simp only [Option.some.injEq, Prod.mk.injEq]
    refine ⟨?_, by rw [← hb.2, List.drop_append_of_le_length hn]⟩
    rw [← hb.1]
    exact Subtype.ext (List.take_append_of_le_length hn)
  · cases hb

theorem stable_pair {α β : Type} {f : List Byte → Option (α × List Byte)} {g : List Byte → Option (β × List Byte)} (hf : Stable f) (hg : Stable g) : Stable (getPair f g) :=
  stable_bind hf (g := fun a r => (g r).map fun (y : β × List Byte) => ((a, y.1), y.2)) fun a => stable_map (g := fun b => (a, b)) hg

theorem stable_tuple {α : Type} (p : Policy) (h : Host) (n : Nat) {f : List Byte → Option (α × List Byte)} (hf : Stable f) : Stable (getTuple p h n f) :=
  stable_bind (stable_size p h) (g := fun s r => if s = n then f r else none) fun _ => stable_ite hf

theorem stable_opt {α : Type} (p : Policy) (h : Host) {f : List Byte → Option (α × List Byte)} (hf : Stable f) (old : Option α) : Stable (getOpt p h f old) :=
  stable_bind (f := getBool p h) (fun _ _ _ q hb => getBool_more hb q) (g := fun b r => if b then (f r).map fun (y : α × List Byte) => (some y.1, y.2) else some (old, r)) fun b => by
    cases b with
    | false => intro bs v r q hb; simp only [Bool.false_eq_true, if_false, Option.some.injEq, Prod.mk.injEq] at hb ⊢; exact ⟨hb.1, by rw [hb.2]⟩
    | true => exact stable_map (g := some) hf

theorem stable_into {ε κ : Type} [DecidableEq κ] (p : Policy) (h : Host) (key : ε → κ) {f : List Byte → Option (ε × List Byte)} (hf : Stable f) (old : List ε) :
    Stable (getInto p h key f old) :=
  stable_bind (stable_size p h) (g := fun n r => readInto key f (rounds n) old r) fun _ => stable_readInto hf _ _

theorem stable_read (p : Policy) (h : Host) : ∀ (t : Ty) (old : t.Val), Stable (read p h t old)
  | .bool, _ => fun _ _ _ q hb => getBool_more hb q
  | .num w, _ => stable_map (g := toNum w) (f := getNum p h w) fun _ _ _ q hb => getNum_more hb q
  | .bytes, _ => stable_bind (stable_size p h) (g := fun n r => if n < 2 ^ 63 then getBytes n r else none) fun n => stable_ite fun _ _ _ q hb => getBytes_more hb q
  | .fixed n, _ => stable_fixed n
  | .seq t, old => stable_bind (stable_size p h) (g := fun n r => if n < 2 ^ 63 then readEach (read p h t) (resize n t.fresh old) r else none) fun n =>
      stable_ite (stable_readEach (stable_read p h t) _)
  | .map k v, old => stable_into (ε := k.Val × v.Val) p h Prod.fst (stable_tuple p h 2 (stable_pair (stable_read p h k k.fresh) (stable_read p h v v.fresh))) old
  | .set t, old => stable_into (ε := t.Val) p h id (stable_read p h t t.fresh) old
  | .opt t, old => stable_opt (α := t.Val) p h (stable_read p h t t.fresh) old
  | .unit, _ => fun bs _ r q hb => show some ((), bs ++ q) = some ((), r ++ q) by
      have : bs = r := congrArg Prod.snd (Option.some.inj (show some ((), bs) = some ((), r) from hb))
      rw [this]
  | .pair a b, _ => stable_pair (stable_read p h a _) (stable_read p h b _)
  | .tuple n t, old => stable_tuple p h n (stable_read p h t old)

/-- If any bytes are missing at the end of what was written the reader does not accept it. -/
theorem C73_cut (p : Policy) (h1 h2 : Host) (ha : Agree p h1 h2) (t : Ty) (v : t.Val) (hv : t.Ok v) (n : Nat) (hn : n < (write p h1 t v).length) :
    read p h2 t t.fresh ((write p h1 t v).take n) = none := by
  cases hr : read p h2 t t.fresh ((write p h1 t v).take n) with
  | none => rfl
  | some x =>
    exfalso
    obtain ⟨w, r⟩ := x
    have h3 := stable_read p h2 t t.fresh _ _ _ ((write p h1 t v).drop n) hr
    rw [List.take_append_drop] at h3
    have h4 := read_write ha t t.fresh v [] hv (.inl rfl)
    rw [List.append_nil, h3] at h4
    simp only [Option.some.injEq, Prod.mk.injEq, List.append_eq_nil_iff, List.drop_eq_nil_iff] at h4
    omega

/-- And bytes that follow a message don't change how it is read. -/
theorem C73_more (p : Policy) (h : Host) (t : Ty) (old v : t.Val) (bs rest more : List Byte) (hr : read p h t old bs = some (v, rest)) :
    read p h t old (bs ++ more) = some (v, rest ++ more) := stable_read p h t old bs v rest more hr

/-! ## Cases -/

/-- `struct { std::string name; std::optional< short> x; std::map< char, std::vector< bool>> m; std::tuple< short, std::array< std::byte, 2>> t; }` -/
def exTy : Ty := .pair .bytes (.pair (.opt (.num 2)) (.pair (.map (.num 1) (.seq .bool)) (.pair (.tuple 2 (.pair (.num 2) (.fixed 2))) .unit)))

def exVal : exTy.Val :=
  (([65, 66] : List Byte), ((some ⟨258, by decide⟩ : Option (Fin (256 ^ 2))), (([(⟨1, by decide⟩, [true, false]), (⟨2, by decide⟩, [])] : List (Fin (256 ^ 1) × List Bool)),
    (((⟨3, by decide⟩ : Fin (256 ^ 2)), (⟨[9, 8], rfl⟩ : { l : List Byte // l.length = 2 })), ()))))

theorem exVal_ok : exTy.Ok exVal := by
  refine ⟨(by decide : 2 < 2 ^ 63), fun _ _ => trivial, ⟨(by decide : 2 < 2 ^ 63), by decide +kernel, ?_⟩, ⟨by decide, trivial, trivial⟩, trivial⟩
  intro e he
  have hl : ∀ e ∈ ([(⟨1, by decide⟩, [true, false]), (⟨2, by decide⟩, [])] : List (Fin (256 ^ 1) × List Bool)), e.2.length < 2 ^ 63 := by decide +kernel
  exact ⟨trivial, hl e he, fun _ _ => trivial⟩

example : (write .network .little exTy exVal).take 13 = [0, 0, 0, 0, 0, 0, 0, 2, 65, 66, 1, 1, 2] ∧ (write .network .little exTy exVal).length = 69 := by decide +kernel
example : read .network .big exTy exTy.fresh (write .network .little exTy exVal ++ [1, 2, 3]) = some (exVal, [1, 2, 3]) := by decide +kernel
-- hosts that do not agree and the native archive: not the same value
example : read .native .big (.num 2) ⟨0, by decide⟩ (write .native .little (.num 2) ⟨258, by decide⟩) = some (⟨513, by decide⟩, []) := by decide +kernel

end Casual.Data
