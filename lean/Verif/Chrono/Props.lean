import Verif.Chrono.Model
/-
  What a text means as a duration, and back.
-/
namespace Casual.Chrono
open Casual.Http (Text isDigit digitsVal showNat showLong showNat_val isSpace)

/-! ### Parts -/

theorem units_ok : ∀ p ∈ units, p.1.all (fun c => c != ' ' && c != '+' && !isDigit c) = true ∧ units.find? (·.1 == p.1) = some p := by decide +kernel

theorem units_are (u : Text) (k : Nat) : (u, k) ∈ units ↔ IsUnit u k := by
  unfold units IsUnit
  generalize "s".toList = s1
  generalize "us".toList = s2
  generalize "ms".toList = s3
  generalize "min".toList = s4
  generalize "h".toList = s5
  generalize "d".toList = s6
  generalize "ns".toList = s7
  simp only [List.mem_cons, Prod.mk.injEq, List.not_mem_nil, or_false]

theorem digit_not {c : Char} (h : isDigit c = true) : c ≠ ' ' ∧ c ≠ '+' := by
  constructor <;> rintro rfl <;> exact absurd h (by decide)

theorem dropWhile_replicate (a : Nat) (w : Text) : (List.replicate a ' ' ++ w).dropWhile isBlank = w.dropWhile isBlank := by
  induction a with
  | zero => rfl
  | succ a ih =>
    rw [List.replicate_succ, List.cons_append, List.dropWhile_cons_of_pos (by decide), ih]

theorem dropWhile_none {p : Char → Bool} {w : Text} (h : ∀ c ∈ w, p c = false) : w.dropWhile p = w := by
  cases w with
  | nil => rfl
  | cons c l => rw [List.dropWhile_cons_of_neg (by simp [h c (by simp)])]

theorem dropWhile_all {p : Char → Bool} {w : Text} (h : ∀ c ∈ w, p c = true) : w.dropWhile p = [] := by
  induction w with
  | nil => rfl
  | cons c l ih => rw [List.dropWhile_cons_of_pos (h c (by simp)), ih fun d hd => h d (by simp [hd])]

/-- Spaces before and after are of no importance. -/
theorem trim_around (a b : Nat) {w : Text} (h : ∀ c ∈ w, c ≠ ' ') : trim (List.replicate a ' ' ++ w ++ List.replicate b ' ') = w := by
  have hw : ∀ c ∈ w, isBlank c = false := fun c hc => by simpa [isBlank] using h c hc
  unfold trim
  rw [List.append_assoc, dropWhile_replicate]
  cases w with
  | nil =>
    rw [List.nil_append, dropWhile_all (w := List.replicate b ' ') (p := isBlank) fun c hc => by rw [(List.mem_replicate.1 hc).2]; rfl]
    rfl
  | cons c l =>
    rw [List.cons_append, List.dropWhile_cons_of_neg (by simp [hw c (by simp)]), ← List.cons_append, List.reverse_append, List.reverse_replicate,
      dropWhile_replicate, dropWhile_none, List.reverse_reverse]
    intro d hd
    exact hw d (List.mem_reverse.1 hd)

theorem leading (t : Text) : ∃ a, t = List.replicate a ' ' ++ t.dropWhile isBlank := by
  induction t with
  | nil => exact ⟨0, rfl⟩
  | cons c t ih =>
    by_cases h : isBlank c = true
    · obtain ⟨a, ha⟩ := ih
      have hc : c = ' ' := by simpa [isBlank] using h
      refine ⟨a + 1, ?_⟩
      rw [List.dropWhile_cons_of_pos h, List.replicate_succ, List.cons_append, ← ha, hc]
    · exact ⟨0, by rw [List.dropWhile_cons_of_neg h]; rfl⟩

theorem around (t : Text) : ∃ a b, t = List.replicate a ' ' ++ trim t ++ List.replicate b ' ' := by
  obtain ⟨a, ha⟩ := leading t
  obtain ⟨b, hb⟩ := leading (t.dropWhile isBlank).reverse
  refine ⟨a, b, ?_⟩
  have h2 := congrArg List.reverse hb
  rw [List.reverse_reverse, List.reverse_append, List.reverse_replicate] at h2
  rw [List.append_assoc, show trim t ++ List.replicate b ' ' = t.dropWhile isBlank from h2.symm]
  exact ha

theorem trim_blank (t : Text) : trim (' ' :: t) = trim t := by
  unfold trim
  rw [List.dropWhile_cons_of_pos (by decide)]

theorem piece_blank (t : Text) : piece (' ' :: t) = piece t := by unfold piece; rw [trim_blank]

theorem piece_nil : piece [] = .ok 0 := by decide +kernel

theorem takeWhile_split {ds u : Text} (h : ∀ c ∈ ds, isDigit c = true) (h2 : ∀ c ∈ u, isDigit c = false) :
    (ds ++ u).takeWhile isDigit = ds ∧ (ds ++ u).dropWhile isDigit = u := by
  induction ds with
  | nil =>
    rw [List.nil_append]
    refine ⟨?_, dropWhile_none h2⟩
    cases u with
    | nil => rfl
    | cons c l => rw [List.takeWhile_cons_of_neg (by simp [h2 c (by simp)])]
  | cons c l ih =>
    obtain ⟨i1, i2⟩ := ih fun d hd => h d (by simp [hd])
    rw [List.cons_append, List.takeWhile_cons_of_pos (h c (by simp)), List.dropWhile_cons_of_pos (h c (by simp)), i1, i2]
    exact ⟨rfl, rfl⟩

theorem unit_chars {u : Text} {k : Nat} (h : IsUnit u k) : ∀ c ∈ u, c ≠ ' ' ∧ c ≠ '+' ∧ isDigit c = false := by
  intro c hc
  have := List.all_eq_true.1 (units_ok _ ((units_are _ _).2 h)).1 c hc
  simp at this
  exact ⟨this.1.1, this.1.2, this.2⟩

/-- What a part gives. -/
theorem piece_one {t : Text} {c : Nat × Nat} (h : One t c) (hc : c.1 ≤ most) :
    piece t = if c.1 * c.2 ≤ most then .ok (c.1 * c.2) else .overflow := by
  obtain ⟨a, b, ds, u, rfl, hd, hv, hu⟩ := h
  have hch := unit_chars hu
  have hw : ∀ d ∈ ds ++ u, d ≠ ' ' := by
    intro d h
    rcases List.mem_append.1 h with h | h
    · exact (digit_not (hd d h)).1
    · exact (hch d h).1
  obtain ⟨s1, s2⟩ := takeWhile_split hd (u := u) fun d h => (hch d h).2.2
  have ht : trim (List.replicate a ' ' ++ ds ++ u ++ List.replicate b ' ') = ds ++ u := by
    rw [List.append_assoc _ ds u]; exact trim_around a b hw
  unfold piece
  rw [ht, s1, s2, (units_ok _ ((units_are _ _).2 hu)).2]
  dsimp only
  unfold count
  rw [← hv, if_pos hc]

theorem one_no_plus {t : Text} {c : Nat × Nat} (h : One t c) : '+' ∉ t := by
  obtain ⟨a, b, ds, u, rfl, hd, hv, hu⟩ := h
  intro hm
  rcases List.mem_append.1 hm with hm | hm
  · rcases List.mem_append.1 hm with hm | hm
    · rcases List.mem_append.1 hm with hm | hm
      · exact absurd (List.mem_replicate.1 hm).2 (by decide)
      · exact (digit_not (hd _ hm)).2 rfl
    · exact (unit_chars hu _ hm).2.1 rfl
  · exact absurd (List.mem_replicate.1 hm).2 (by decide)

/-- What is accepted is a part. -/
theorem piece_accepted {t : Text} {n : Nat} (h : piece t = .ok n) : ∃ c, One t c ∧ (c.1 ≤ most → n = c.1 * c.2) := by
  unfold piece at h
  split at h
  · cases h
  · rename_i p hp
    have hu : p ∈ units := List.mem_of_find?_eq_some hp
    have he : p.1 = (trim t).dropWhile isDigit := by simpa using List.find?_some hp
    obtain ⟨a, b, hab⟩ := around t
    refine ⟨(digitsVal ((trim t).takeWhile isDigit), p.2), ⟨a, b, (trim t).takeWhile isDigit, p.1, ?_, ?_, rfl, (units_are _ _).1 hu⟩, ?_⟩
    · rw [he, List.append_assoc _ (List.takeWhile _ _), List.takeWhile_append_dropWhile]
      exact hab
    · intro d hd; exact (List.all_takeWhile (p := isDigit) (l := trim t) |> List.all_eq_true.1) d hd
    · intro hc
      split at h
      · cases h
        unfold count
        rw [if_pos hc]
      · cases h

/-! ### The whole -/

/-- The parts of a text. -/
def split : Text → List Text
  | [] => [[]]
  | c :: t => if c = '+' then [] :: split t else
    match split t with
    | h :: r => (c :: h) :: r
    | [] => [[c]]

theorem split_ne (t : Text) : ∃ h r, split t = h :: r := by
  cases t with
  | nil => exact ⟨_, _, rfl⟩
  | cons c t =>
    unfold split
    split
    · exact ⟨_, _, rfl⟩
    · split <;> exact ⟨_, _, rfl⟩

theorem split_plus {t : Text} (h : '+' ∉ t) (s : Text) : split (t ++ '+' :: s) = t :: split s := by
  induction t with
  | nil => rw [List.nil_append]; show (if _ then _ else _) = _; rw [if_pos rfl]
  | cons c t ih =>
    rw [List.cons_append]
    show (if _ then _ else _) = _
    rw [if_neg (fun e => h (by simp [e])), ih fun hm => h (by simp [hm])]

theorem split_none {t : Text} (h : '+' ∉ t) : split t = [t] := by
  induction t with
  | nil => rfl
  | cons c t ih =>
    show (if _ then _ else _) = _
    rw [if_neg (fun e => h (by simp [e])), ih fun hm => h (by simp [hm])]

theorem cut (t : Text) : ('+' ∉ t ∧ t.takeWhile (· != '+') = t ∧ (t.dropWhile (· != '+')).drop 1 = [])
    ∨ ('+' ∉ t.takeWhile (· != '+') ∧ t = t.takeWhile (· != '+') ++ '+' :: (t.dropWhile (· != '+')).drop 1) := by
  induction t with
  | nil => exact Or.inl ⟨by simp, rfl, rfl⟩
  | cons c t ih =>
    by_cases h : c = '+'
    · subst h
      refine Or.inr ⟨?_, ?_⟩
      · rw [List.takeWhile_cons_of_neg (by decide)]; simp
      · rw [List.takeWhile_cons_of_neg (by decide), List.dropWhile_cons_of_neg (by decide)]; rfl
    · have hb : (c != '+') = true := by simpa using h
      rw [List.takeWhile_cons_of_pos (p := (· != '+')) hb, List.dropWhile_cons_of_pos (p := (· != '+')) hb]
      rcases ih with ⟨h1, h2, h3⟩ | ⟨h1, h2⟩
      · exact Or.inl ⟨by simp [h1, Ne.symm h], by rw [h2], h3⟩
      · refine Or.inr ⟨?_, ?_⟩
        · intro hm
          rcases List.mem_cons.1 hm with hm | hm
          · exact h hm.symm
          · exact h1 hm
        · rw [List.cons_append, ← h2]

/-- What has been added up fits. -/
def Fits (r : Res) : Prop := ∀ n, r = .ok n → n ≤ most

theorem addPiece_fits (acc : Res) (p : Text) (h : Fits acc) : Fits (addPiece acc p) := by
  intro n hn
  unfold addPiece at hn
  cases acc with
  | ok a =>
    simp only at hn
    split at hn
    · split at hn
      · cases hn; assumption
      · cases hn
    · rename_i e1 e2
      exact absurd hn (by
        intro hn
        exact e2 n hn)
  | refused => cases hn
  | overflow => cases hn

theorem addPiece_nil (acc : Res) (h : Fits acc) : addPiece acc [] = acc := by
  unfold addPiece
  cases acc with
  | ok a => rw [piece_nil]; exact if_pos (h a rfl)
  | refused => rfl
  | overflow => rfl

theorem addPiece_blank (acc : Res) (p : Text) : addPiece acc (' ' :: p) = addPiece acc p := by
  unfold addPiece; rw [piece_blank]

theorem fold_blank (t : Text) (acc : Res) : (split (t.dropWhile isBlank)).foldl addPiece acc = (split t).foldl addPiece acc := by
  induction t with
  | nil => rfl
  | cons c t ih =>
    by_cases h : isBlank c = true
    · rw [List.dropWhile_cons_of_pos h, ih]
      have hc : c = ' ' := by simpa [isBlank] using h
      subst hc
      obtain ⟨x, r, hx⟩ := split_ne t
      have : split (' ' :: t) = (' ' :: x) :: r := by
        show (if _ then _ else _) = _
        rw [if_neg (by decide), hx]
      rw [this, hx, List.foldl_cons, List.foldl_cons, addPiece_blank]
    · rw [List.dropWhile_cons_of_neg h]

/-- All parts are added up. -/
theorem loop_split (n : Nat) : ∀ (t : Text) (acc : Res), t.length ≤ n → Fits acc → loop acc t = (split t).foldl addPiece acc := by
  induction n with
  | zero =>
    intro t acc hl hf
    cases t with
    | nil =>
      unfold loop
      rw [if_pos ⟨rfl, rfl⟩]
      exact (addPiece_nil acc hf).symm
    | cons c l => simp at hl
  | succ n ih =>
    intro t acc hl hf
    rw [← fold_blank]
    unfold loop
    by_cases hd : first t = [] ∧ rest t = []
    · rw [if_pos hd]
      obtain ⟨h1, h2⟩ := hd
      unfold first at h1
      unfold rest at h2
      rcases cut (t.dropWhile isBlank) with ⟨c1, c2, c3⟩ | ⟨c1, c2⟩
      · rw [← c2, h1]
        exact (addPiece_nil acc hf).symm
      · rw [c2, h1, h2]
        show acc = (([] : Text) :: [[]]).foldl addPiece acc
        rw [List.foldl_cons, addPiece_nil acc hf, List.foldl_cons, addPiece_nil acc hf]
        rfl
    · rw [if_neg hd, ih (rest t) _ (by have := rest_shorter t hd; omega) (addPiece_fits _ _ hf)]
      rcases cut (t.dropWhile isBlank) with ⟨c1, c2, c3⟩ | ⟨c1, c2⟩
      · rw [split_none c1]
        unfold first rest
        rw [c2, c3]
        show addPiece (addPiece acc _) [] = addPiece acc _
        exact addPiece_nil _ (addPiece_fits _ _ hf)
      · have e : split (t.dropWhile isBlank) = first t :: split (rest t) := by
          rw [c2]; exact split_plus c1 _
        rw [e, List.foldl_cons]

theorem fromString_split (t : Text) : fromString t = (split t).foldl addPiece (.ok 0) :=
  loop_split t.length t _ (Nat.le_refl _) fun n hn => by cases hn; exact Nat.zero_le _

theorem fold_refused (l : List Text) : l.foldl addPiece .refused = .refused := by
  induction l with
  | nil => rfl
  | cons p l ih => exact ih

theorem fold_overflow (l : List Text) : l.foldl addPiece .overflow = .overflow := by
  induction l with
  | nil => rfl
  | cons p l ih => exact ih

theorem fold_written {t : Text} {cs : List (Nat × Nat)} (h : Written t cs) (hs : ∀ c ∈ cs, c.1 ≤ most) (a : Nat) (ha : a ≤ most) :
    (split t).foldl addPiece (.ok a) = if a + total cs ≤ most then .ok (a + total cs) else .overflow := by
  have hadd : ∀ {t c} (a : Nat), One t c → c.1 ≤ most → a ≤ most → addPiece (.ok a) t = if a + c.1 * c.2 ≤ most then .ok (a + c.1 * c.2) else .overflow := by
    intro t c a h1 h2 h3
    unfold addPiece
    dsimp only
    rw [piece_one h1 h2]
    by_cases h : c.1 * c.2 ≤ most
    · rw [if_pos h]
    · rw [if_neg h, if_neg (by omega)]
  induction h generalizing a with
  | one h1 =>
    rename_i t c
    rw [split_none (one_no_plus h1)]
    rw [List.foldl_cons, List.foldl_nil, hadd a h1 (hs c (by simp)) ha]
    show _ = if a + total [c] ≤ most then _ else _
    have : total [c] = c.1 * c.2 := by unfold total; simp
    rw [this]
  | more h1 h2 ih =>
    rename_i t s c cs
    rw [split_plus (one_no_plus h1), List.foldl_cons, hadd a h1 (hs c (by simp)) ha]
    have e : total (c :: cs) = c.1 * c.2 + total cs := by unfold total; simp
    rw [e]
    by_cases h : a + c.1 * c.2 ≤ most
    · rw [if_pos h, ih (fun c hc => hs c (by simp [hc])) _ h, Nat.add_assoc]
    · rw [if_neg h, fold_overflow, if_neg (by omega)]

/-- A text that is written as it should, with numbers that fit in 64 bits, gives what it says; if that does not fit in 64 bits it is undefined. -/
theorem duration_read_partial (t : Text) (cs : List (Nat × Nat)) (h : Written t cs) (hs : ∀ c ∈ cs, c.1 ≤ most) :
    fromString t = if total cs ≤ most then .ok (total cs) else .overflow := by
  rw [fromString_split, fold_written h hs 0 (Nat.zero_le _), Nat.zero_add]

example : Written "1h + 2min+ 30".toList [(1, 3600000000000), (2, 60000000000), (30, 1000000000)] :=
  .more (t := "1h ".toList) ⟨0, 1, "1".toList, "h".toList, by decide +kernel, by decide +kernel, by decide +kernel, (units_are _ _).1 (by decide +kernel)⟩
    (.more (t := " 2min".toList) ⟨1, 0, "2".toList, "min".toList, by decide +kernel, by decide +kernel, by decide +kernel, (units_are _ _).1 (by decide +kernel)⟩
      (.one (t := " 30".toList) ⟨1, 0, "30".toList, [], by decide +kernel, by decide +kernel, by decide +kernel, (units_are _ _).1 (by decide +kernel)⟩))

theorem fold_accepted (l : List Text) (a n : Nat) (h : l.foldl addPiece (.ok a) = .ok n) : ∀ p ∈ l, ∃ c, One p c := by
  induction l generalizing a with
  | nil => intro p hp; cases hp
  | cons q l ih =>
    rw [List.foldl_cons] at h
    have hq : ∃ b, piece q = .ok b := by
      cases hp : piece q with
      | ok b => exact ⟨b, rfl⟩
      | refused =>
        have : addPiece (.ok a) q = .refused := by unfold addPiece; dsimp only; rw [hp]
        rw [this, fold_refused] at h; cases h
      | overflow =>
        have : addPiece (.ok a) q = .overflow := by unfold addPiece; dsimp only; rw [hp]
        rw [this, fold_overflow] at h; cases h
    obtain ⟨b, hb⟩ := hq
    have he : addPiece (.ok a) q = if a + b ≤ most then .ok (a + b) else .overflow := by unfold addPiece; dsimp only; rw [hb]
    rw [he] at h
    split at h
    · intro p hp
      rcases List.mem_cons.1 hp with rfl | hp
      · obtain ⟨c, hc, _⟩ := piece_accepted hb; exact ⟨c, hc⟩
      · exact ih _ h p hp
    · rw [fold_overflow] at h; cases h

theorem written_split (t : Text) (h : ∀ p ∈ split t, ∃ c, One p c) : ∃ cs, Written t cs := by
  generalize hn : t.length = n
  induction n using Nat.strongRecOn generalizing t with
  | ind n ih =>
    rcases cut t with ⟨c1, c2, c3⟩ | ⟨c1, c2⟩
    · rw [split_none c1] at h
      obtain ⟨c, hc⟩ := h t (by simp)
      exact ⟨_, .one hc⟩
    · generalize hf : t.takeWhile (· != '+') = f at c1 c2
      generalize hr : (t.dropWhile (· != '+')).drop 1 = r at c2
      subst c2
      rw [split_plus c1] at h
      obtain ⟨c, hc⟩ := h f (by simp)
      obtain ⟨cs, hcs⟩ := ih r.length (by rw [← hn]; simp; omega) r (fun p hp => h p (by simp [hp])) rfl
      exact ⟨_, .more hc hcs⟩

/-- What is not written as it should is never taken for a duration. -/
theorem nonsense_refused (t : Text) (h : ¬ ∃ cs, Written t cs) : ∀ n, fromString t ≠ .ok n := by
  intro n hn
  rw [fromString_split] at hn
  exact h (written_split t (fold_accepted _ _ _ hn))

theorem written_all {t : Text} {cs : List (Nat × Nat)} (h : Written t cs) : ∀ p ∈ split t, ∃ c, One p c := by
  induction h with
  | one h1 => rw [split_none (one_no_plus h1)]; intro p hp; rw [List.mem_singleton.1 hp]; exact ⟨_, h1⟩
  | more h1 _ ih =>
    rw [split_plus (one_no_plus h1)]
    intro p hp
    rcases List.mem_cons.1 hp with rfl | hp
    · exact ⟨_, h1⟩
    · exact ih p hp

/-- A unit that is not known is refused, as is a space before the unit. -/
example : ¬ (∃ cs, Written "42ps".toList cs) ∧ fromString "42ps".toList = .refused ∧ fromString "1 h".toList = .refused := by
  refine ⟨?_, ?_, ?_⟩
  · rintro ⟨cs, h⟩
    obtain ⟨c, a, b, ds, u, e, hd, hv, hu⟩ := written_all h "42ps".toList (by decide +kernel)
    have := (piece_one (t := "42ps".toList) (c := (42, c.2)))
    have h2 : trim "42ps".toList = ds ++ u := by
      rw [e, List.append_assoc _ ds u]
      apply trim_around
      intro d h
      rcases List.mem_append.1 h with h | h
      · exact (digit_not (hd d h)).1
      · exact (unit_chars hu d h).1
    have h3 := (takeWhile_split hd (u := u) fun d h => (unit_chars hu d h).2.2).2
    rw [← h2] at h3
    have h4 : "ps".toList = u := by rw [← h3]; decide +kernel
    have h5 : units.find? (·.1 == u) = some (u, c.2) := (units_ok _ ((units_are _ _).2 hu)).2
    rw [← h4] at h5
    exact absurd h5 (by rw [show units.find? (·.1 == "ps".toList) = none by decide +kernel]; simp)
  · rw [fromString_split]; decide +kernel
  · rw [fromString_split]; decide +kernel

/-- A number that is too large for 64 bits is taken for 0. -/
theorem duration_read_refuted : ∃ t cs, Written t cs ∧ most < total cs ∧ fromString t = .ok 0 := by
  refine ⟨"9223372036854775808ns".toList, [(9223372036854775808, 1)],
    .one ⟨0, 0, "9223372036854775808".toList, "ns".toList, by decide +kernel, by decide +kernel, by decide +kernel, (units_are _ _).1 (by decide +kernel)⟩, by decide +kernel, ?_⟩
  rw [fromString_split]; decide +kernel

/-! ### Back -/

/-- A number, and a unit, with a space after. -/
theorem one_shown (n k : Nat) (u : Text) (h : IsUnit u k) (a b : Nat) : One (List.replicate a ' ' ++ showNat n ++ u ++ List.replicate b ' ') (n, k) :=
  ⟨a, b, showNat n, u, rfl, fun d hd => ((showNat_val n).2.1 d hd).1, (showNat_val n).1.symm, h⟩

/-- What has been written so far, when something follows. -/
def Begun (o : Text × Bool) (cs : List (Nat × Nat)) : Prop :=
  (o.2 = false → o.1 = [] ∧ cs = []) ∧ (o.2 = true → cs ≠ [] ∧ ∀ b, Written (o.1 ++ List.replicate b ' ') cs)

theorem written_append {t s : Text} {cs ds : List (Nat × Nat)} (h : Written t cs) (h2 : Written s ds) : Written (t ++ '+' :: s) (cs ++ ds) := by
  induction h with
  | one h1 => exact .more h1 h2
  | more h1 _ ih => rw [List.append_assoc, List.cons_append]; exact .more h1 ih

theorem begun_stream {o : Text × Bool} {cs : List (Nat × Nat)} (h : Begun o cs) (n k : Nat) (u : Text) (hu : (u, k) ∈ units) :
    Begun (stream o n u) (if n = 0 then cs else cs ++ [(n, k)]) := by
  unfold stream
  by_cases hn : n = 0
  · rw [if_pos (by omega), if_pos hn]; exact h
  · rw [if_neg (by omega), if_neg hn]
    have hs : showLong (n : Int) = showNat n := by
      unfold showLong; rw [if_neg (by omega)]; rfl
    rw [hs]
    refine ⟨fun e => by simp at e, fun _ => ⟨by simp, fun b => ?_⟩⟩
    dsimp only
    cases ho : o.2 with
    | false =>
      obtain ⟨h1, h2⟩ := h.1 ho
      rw [h1, h2]
      exact .one (one_shown n k u ((units_are _ _).1 hu) 0 b)
    | true =>
      have h1 := (h.2 ho).2 1
      have h2 := Written.one (one_shown n k u ((units_are _ _).1 hu) 1 b)
      have := written_append h1 h2
      simp only [if_true]
      have e : o.1 ++ " + ".toList ++ showNat n ++ u ++ List.replicate b ' '
          = (o.1 ++ List.replicate 1 ' ') ++ '+' :: (List.replicate 1 ' ' ++ showNat n ++ u ++ List.replicate b ' ') := by
        show o.1 ++ [' ', '+', ' '] ++ showNat n ++ u ++ List.replicate b ' ' = _
        simp
      rw [e]
      exact this

/-- What is told as text is read as what it was: all durations that are not negative, to the nanosecond. -/
theorem told_is_read_partial (n : Nat) (h : n ≤ most) : fromString (toString n) = .ok n := by
  by_cases hn : n = 0
  · subst hn
    rw [fromString_split]; decide +kernel
  · unfold toString
    rw [if_neg (by omega)]
    have e1 : ((n : Int).tdiv 3600000000000) = ((n / 3600000000000 : Nat) : Int) := rfl
    have e2 : (((n : Int).tmod 3600000000000).tdiv 60000000000) = ((n % 3600000000000 / 60000000000 : Nat) : Int) := rfl
    have e3 : (((n : Int).tmod 60000000000).tdiv 1000000000) = ((n % 60000000000 / 1000000000 : Nat) : Int) := rfl
    have e4 : (((n : Int).tmod 1000000000).tdiv 1000000) = ((n % 1000000000 / 1000000 : Nat) : Int) := rfl
    have e5 : (((n : Int).tmod 1000000).tdiv 1000) = ((n % 1000000 / 1000 : Nat) : Int) := rfl
    have e6 : ((n : Int).tmod 1000) = ((n % 1000 : Nat) : Int) := rfl
    rw [e1, e2, e3, e4, e5, e6]
    have b0 : Begun ([], false) [] := ⟨fun _ => ⟨rfl, rfl⟩, fun e => by simp at e⟩
    have b1 := begun_stream b0 (n / 3600000000000) 3600000000000 "h".toList (by decide +kernel)
    have b2 := begun_stream b1 (n % 3600000000000 / 60000000000) 60000000000 "min".toList (by decide +kernel)
    have b3 := begun_stream b2 (n % 60000000000 / 1000000000) 1000000000 "s".toList (by decide +kernel)
    have b4 := begun_stream b3 (n % 1000000000 / 1000000) 1000000 "ms".toList (by decide +kernel)
    have b5 := begun_stream b4 (n % 1000000 / 1000) 1000 "us".toList (by decide +kernel)
    have b6 := begun_stream b5 (n % 1000) 1 "ns".toList (by decide +kernel)
    dsimp only
    generalize hcs : (if n % 1000 = 0 then _ else _) = cs at b6
    generalize stream _ _ _ = o at b6 ⊢
    have ht : total cs = n ∧ ∀ c ∈ cs, c.1 ≤ n := by
      have tnil : total [] = 0 := rfl
      have tapp : ∀ (l : List (Nat × Nat)) (a b : Nat), total (l ++ [(a, b)]) = total l + a * b := by
        intro l a b; unfold total; simp
      have step : ∀ (l : List (Nat × Nat)) (a b : Nat), total (if a = 0 then l else l ++ [(a, b)]) = total l + a * b := by
        intro l a b
        by_cases h : a = 0
        · rw [if_pos h, h]; omega
        · rw [if_neg h, tapp]
      have step2 : ∀ (l : List (Nat × Nat)) (a b : Nat), (∀ c ∈ l, c.1 ≤ n) → a ≤ n → ∀ c ∈ (if a = 0 then l else l ++ [(a, b)]), c.1 ≤ n := by
        intro l a b h1 h2 c hc
        split at hc
        · exact h1 c hc
        · rcases List.mem_append.1 hc with hc | hc
          · exact h1 c hc
          · rw [List.mem_singleton.1 hc]; exact h2
      refine ⟨?_, ?_⟩
      · rw [← hcs, step, step, step, step, step, step, tnil]
        omega
      · rw [← hcs]
        refine step2 _ _ _ (step2 _ _ _ (step2 _ _ _ (step2 _ _ _ (step2 _ _ _ (step2 _ _ _ (fun c hc => by cases hc) ?_) ?_) ?_) ?_) ?_) ?_ <;> omega
    cases ho : o.2 with
    | false =>
      have := (b6.1 ho).2
      rw [this] at ht
      exact absurd ht.1 (by show (0 : Nat) ≠ n; omega)
    | true =>
      have := (b6.2 ho).2 0
      rw [show List.replicate 0 ' ' = [] from rfl, List.append_nil] at this
      rw [duration_read_partial _ _ this fun c hc => Nat.le_trans (ht.2 c hc) h, ht.1, if_pos h]

/-- Different durations are told differently. -/
theorem told_apart (m n : Nat) (hm : m ≤ most) (hn : n ≤ most) (h : toString m = toString n) : m = n := by
  have h1 := told_is_read_partial m hm
  rw [h, told_is_read_partial n hn] at h1
  exact (Res.ok.inj h1).symm

/-- A negative duration is told as a text that is refused. -/
theorem told_is_read_refuted : toString (-5400000000000) = "-1h + -30min".toList ∧ fromString (toString (-5400000000000)) = .refused := by
  have : toString (-5400000000000) = "-1h + -30min".toList := by
    unfold toString stream showLong showNat; decide +kernel
  rw [this, fromString_split]
  exact ⟨rfl, by decide +kernel⟩

end Casual.Chrono
