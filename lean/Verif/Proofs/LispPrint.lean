import Verif.Model.LispPrint
import Verif.Spec.LispPrint
import Verif.Proofs.Lisp
import Verif.Props.Colors
/-!
# Printed expressions
-/

namespace Joeson.Lisp
open Arith Spec RuleText

/-! ## The text without colours -/

mutual
/-- What is printed, without colours. -/
def bare (fmt : Float64 → Bytes) : LExpr → Bytes
  | .str s => [0x22] ++ s ++ [0x22]
  | .num x => fmt x
  | .op s => s
  | .list l => [0x28] ++ joinWith [0x20] (bares fmt l) ++ [0x29]
/-- All of them. -/
def bares (fmt : Float64 → Bytes) : List LExpr → List Bytes
  | [] => []
  | e :: l => bare fmt e :: bares fmt l
end

/-- Elements after the first, each after a blank. -/
def bareTail (fmt : Float64 → Bytes) : List LExpr → Bytes
  | [] => []
  | e :: l => [0x20] ++ bare fmt e ++ bareTail fmt l

theorem join_bares (fmt : Float64 → Bytes) (e : LExpr) : ∀ l, joinWith [0x20] (bares fmt (e :: l)) = bare fmt e ++ bareTail fmt l := by
  intro l
  induction l generalizing e with
  | nil => simp [bares, joinWith, bareTail]
  | cons e' l ih =>
    have := ih e'
    simp only [bares, joinWith, bareTail] at this ⊢
    rw [this]
    simp

mutual
theorem coloured_string (fmt : Float64 → Bytes) : ∀ e, Coloured (exprString fmt e) (bare fmt e)
  | .str s => by
    unfold exprString bare quoted
    exact ((C55_colours red (by simp) (.plain _)).append (C55_colours blue (by simp) (.plain _))).append (C55_colours red (by simp) (.plain _))
  | .num x => by
    unfold exprString bare
    exact C55_colours boldMagenta (by simp) (.plain _)
  | .op s => by
    unfold exprString bare
    exact C55_colours boldCyan (by simp) (.plain _)
  | .list l => by
    unfold exprString bare colorParen
    exact ((C55_colours boldCyan (by simp) (.plain _)).append (coloured_strings fmt l)).append (C55_colours boldCyan (by simp) (.plain _))
theorem coloured_strings (fmt : Float64 → Bytes) : ∀ l, Coloured (joinWith [0x20] (exprStrings fmt l)) (joinWith [0x20] (bares fmt l))
  | [] => .nil
  | [e] => by
    simp only [exprStrings, bares, joinWith]
    exact coloured_string fmt e
  | e :: e' :: l => by
    have := coloured_strings fmt (e' :: l)
    simp only [exprStrings, bares, joinWith] at this ⊢
    exact ((coloured_string fmt e).append (.plain _)).append this
end

/-! ## Escape sequences -/

/-- Not the second byte of U+009B. -/
def NotSecond (s : Bytes) : Prop := s.head? ≠ some 0x9B

theorem noEscapes_append {a b : Bytes} (ha : NoEscapes a) (hb : NoEscapes b) (h : NotSecond b) : NoEscapes (a ++ b) := by
  obtain ⟨a1, a2, a3⟩ := ha
  obtain ⟨b1, b2, b3⟩ := hb
  refine ⟨by simp [a1, b1], by simp [a2, b2], ?_⟩
  rintro ⟨x, y, hxy⟩
  rw [List.append_assoc] at hxy
  rcases List.append_eq_append_iff.mp hxy with ⟨m, h1, h2⟩ | ⟨m, h1, h2⟩
  · -- a = x ++ m, [C2, 9B] ++ y = m ++ b
    rcases List.append_eq_append_iff.mp h2 with ⟨m', h3, h4⟩ | ⟨m', h3, h4⟩
    · -- m = [C2,9B] ++ m'
      exact a3 ⟨x, m', by rw [h1, h3]; simp⟩
    · -- [C2,9B] = m ++ m', b = m' ++ y
      match m, h3 with
      | [], h3 => rw [List.nil_append] at h3; subst h3; exact b3 ⟨[], y, by rw [h4]; rfl⟩
      | [c], h3 =>
        simp only [List.cons_append, List.nil_append, List.cons.injEq] at h3
        rw [← h3.2] at h4
        exact h (by rw [h4]; rfl)
      | [c, c'], h3 =>
        simp only [List.cons_append, List.nil_append, List.cons.injEq] at h3
        obtain ⟨rfl, rfl, rfl⟩ := h3
        exact a3 ⟨x, [], by rw [h1]; simp⟩
      | _ :: _ :: _ :: _, h3 => simp at h3
  · exact b3 ⟨m, y, by rw [h2]; simp⟩

/-- Every character is ASCII and printable. -/
def Printable (s : Bytes) : Prop := ∀ c ∈ s, 0x20 ≤ c.toNat ∧ c.toNat ≤ 0x7E

theorem printable_noEscapes {s : Bytes} (h : Printable s) : NoEscapes s := by
  refine ⟨fun hc => ?_, fun hc => ?_, fun hc => ?_⟩
  · exact absurd (h _ hc) (by decide)
  · exact absurd (h _ hc) (by decide)
  · exact absurd (h 0xC2 (hc.subset (by simp))) (by decide)

theorem printable_notSecond {s : Bytes} (h : Printable s) (t : Bytes) (ht : NotSecond t) : NotSecond (s ++ t) := by
  match s, h with
  | [], _ => exact ht
  | c :: s, h =>
    intro hc
    simp only [List.cons_append, List.head?_cons, Option.some.injEq] at hc
    subst hc
    exact absurd (h _ (List.mem_cons_self ..)) (by decide)

theorem letter_printable {c : UInt8} (h : IsLetter c) : 0x20 ≤ c.toNat ∧ c.toNat ≤ 0x7E := by
  rcases h with h | h | rfl | rfl
  · omega
  · omega
  · decide
  · decide

theorem digit_printable {c : UInt8} (h : IsDigit c) : 0x20 ≤ c.toNat ∧ c.toNat ≤ 0x7E := by
  unfold IsDigit at h; omega

theorem op_printable {w : Bytes} (h : IsWord w ∨ w ∈ symbols) : Printable w := by
  intro c hc
  rcases h with ⟨a, l, rfl, ha, hl⟩ | h
  · rcases List.mem_cons.mp hc with rfl | hc
    · exact letter_printable ha
    · rcases hl c hc with h | h | rfl
      · exact letter_printable h
      · exact digit_printable h
      · decide
  · have : ∀ w ∈ symbols, ∀ c ∈ w, 0x20 ≤ c.toNat ∧ c.toNat ≤ 0x7E := by decide
    exact this w h c hc

theorem sign_printable (neg : Bool) : Printable (sign neg) := by cases neg <;> simp [sign, Printable]

theorem fixed_printable {fmt : Float64 → Bytes} (hf : PrintsFixed fmt) (x : Float64) : Printable (fmt x) := by
  rcases hf x with ⟨neg, ds, ds', _, h1, h2, h3⟩ | h | h | h
  · rw [h3]
    intro c hc
    simp only [List.append_assoc, List.mem_append, List.mem_cons] at hc
    rcases hc with hc | hc | rfl | hc
    · exact sign_printable neg c hc
    · exact digit_printable (h1 c hc)
    · decide
    · exact digit_printable (h2 c hc)
  all_goals rw [h]; simp [Printable]

mutual
theorem bare_noEscapes {fmt : Float64 → Bytes} (hf : PrintsFixed fmt) : ∀ e : LExpr, e.Plain → NoEscapes (bare fmt e) ∧ NotSecond (bare fmt e)
  | .str s, h => by
    unfold LExpr.Plain at h
    unfold bare
    refine ⟨?_, by simp [NotSecond]⟩
    rw [List.append_assoc]
    have h1 : NoEscapes (s ++ [0x22]) := noEscapes_append ⟨h.2.1, h.2.2.1, h.2.2.2⟩ (printable_noEscapes (by simp [Printable])) (by simp [NotSecond])
    have h2 : Printable [0x22] := by simp [Printable]
    -- the quote is not the first byte of U+009B
    refine ⟨?_, ?_, ?_⟩
    · simp only [List.singleton_append, List.mem_cons, not_or]; exact ⟨by decide, h1.1⟩
    · simp only [List.singleton_append, List.mem_cons, not_or]; exact ⟨by decide, h1.2.1⟩
    · rw [List.singleton_append, List.infix_cons_iff]
      rintro (h3 | h3)
      · rw [List.cons_prefix_cons] at h3
        exact absurd h3.1 (by decide)
      · exact h1.2.2 h3
  | .num x, _ => by
    unfold bare
    have := fixed_printable hf x
    exact ⟨printable_noEscapes this, by simpa using printable_notSecond this [] (by simp [NotSecond])⟩
  | .op s, h => by
    unfold LExpr.Plain at h
    unfold bare
    have := op_printable h
    exact ⟨printable_noEscapes this, by simpa using printable_notSecond this [] (by simp [NotSecond])⟩
  | .list l, h => by
    unfold LExpr.Plain at h
    unfold bare
    obtain ⟨h1, h2⟩ := bares_noEscapes hf l h
    refine ⟨noEscapes_append (noEscapes_append (printable_noEscapes (by simp [Printable])) h1 h2) (printable_noEscapes (by simp [Printable])) (by simp [NotSecond]), by simp [NotSecond]⟩
theorem bares_noEscapes {fmt : Float64 → Bytes} (hf : PrintsFixed fmt) : ∀ l, LExpr.Plains l → NoEscapes (joinWith [0x20] (bares fmt l)) ∧ NotSecond (joinWith [0x20] (bares fmt l))
  | [], _ => by simp [bares, joinWith, NoEscapes, NotSecond]
  | [e], h => by
    unfold LExpr.Plains at h
    simp only [bares, joinWith]
    exact bare_noEscapes hf e h.1
  | e :: e' :: l, h => by
    unfold LExpr.Plains at h
    obtain ⟨h1, h2⟩ := bare_noEscapes hf e h.1
    obtain ⟨h3, h4⟩ := bares_noEscapes hf (e' :: l) h.2
    simp only [bares, joinWith] at h3 h4 ⊢
    refine ⟨noEscapes_append (noEscapes_append h1 (printable_noEscapes (by simp [Printable])) (by simp [NotSecond])) h3 h4, ?_⟩
    unfold NotSecond at h2 ⊢
    cases hb : bare fmt e with
    | nil => simp
    | cons c t => rw [hb] at h2; simpa using h2
end

/-! ## Reading it -/

mutual
/-- An expression without numbers, as it is written. -/
def LExpr.written : LExpr → SExpr
  | .str s => .str s
  | .num _ => .op []
  | .op s => .op s
  | .list l => .list (LExpr.writtens true l) []
/-- The elements of a list, with a blank between them. -/
def LExpr.writtens (first : Bool) : List LExpr → SItems
  | [] => .nil
  | e :: l => .cons (if first then [] else [0x20]) e.written (LExpr.writtens false l)
end

mutual
theorem written_text (fmt : Float64 → Bytes) : ∀ e : LExpr, e.NoNum → e.written.text = bare fmt e
  | .str s, _ => by simp [LExpr.written, SExpr.text, bare]
  | .num x, h => by unfold LExpr.NoNum at h; exact h.elim
  | .op s, _ => by simp [LExpr.written, SExpr.text, bare]
  | .list [], _ => by simp [LExpr.written, LExpr.writtens, SExpr.text, SItems.text, bare, bares, joinWith]
  | .list (e :: l), h => by
    unfold LExpr.NoNum LExpr.NoNums at h
    have h1 := written_text fmt e h.1
    have h2 := writtens_text fmt l h.2
    unfold bare
    rw [join_bares]
    simp only [LExpr.written, LExpr.writtens, SExpr.text, SItems.text, if_true, List.nil_append, List.append_nil, h1, h2]
theorem writtens_text (fmt : Float64 → Bytes) : ∀ l, LExpr.NoNums l → (LExpr.writtens false l).text = bareTail fmt l
  | [], _ => by simp [LExpr.writtens, SItems.text, bareTail]
  | e :: l, h => by
    unfold LExpr.NoNums at h
    simp only [LExpr.writtens, SItems.text, bareTail, written_text fmt e h.1, writtens_text fmt l h.2]
    simp
end

mutual
theorem written_ok : ∀ e : LExpr, e.NoNum → e.Plain → e.written.Ok
  | .str s, _, h => by unfold LExpr.Plain at h; simp only [LExpr.written, SExpr.Ok]; exact h.1
  | .num x, h, _ => by unfold LExpr.NoNum at h; exact h.elim
  | .op s, _, h => by unfold LExpr.Plain at h; simp only [LExpr.written, SExpr.Ok]; exact h
  | .list l, h, h' => by
    unfold LExpr.NoNum at h
    unfold LExpr.Plain at h'
    simp only [LExpr.written, SExpr.Ok]
    exact ⟨writtens_ok true l h h', by simp⟩
theorem writtens_ok (first : Bool) : ∀ l, LExpr.NoNums l → LExpr.Plains l → (LExpr.writtens first l).Ok first
  | [], _, _ => by simp [LExpr.writtens, SItems.Ok]
  | e :: l, h, h' => by
    unfold LExpr.NoNums at h
    unfold LExpr.Plains at h'
    simp only [LExpr.writtens, SItems.Ok]
    refine ⟨?_, ?_, written_ok e h.1 h'.1, writtens_ok false l h.2 h'.2⟩
    · cases first <;> simp [IsSpace]
    · rintro rfl; simp
end

mutual
theorem written_val (f : Int → Float64) : ∀ e : LExpr, e.NoNum → e.written.val f = some e
  | .str s, _ => by simp [LExpr.written, SExpr.val]
  | .num x, h => by unfold LExpr.NoNum at h; exact h.elim
  | .op s, _ => by simp [LExpr.written, SExpr.val]
  | .list l, h => by
    unfold LExpr.NoNum at h
    simp only [LExpr.written, SExpr.val, writtens_val f true l h, Option.map_some]
theorem writtens_val (f : Int → Float64) (first : Bool) : ∀ l, LExpr.NoNums l → (LExpr.writtens first l).vals f = some l
  | [], _ => by simp [LExpr.writtens, SItems.vals]
  | e :: l, h => by
    unfold LExpr.NoNums at h
    simp only [LExpr.writtens, SItems.vals, written_val f e h.1, writtens_val f false l h.2, Option.bind_some, Option.map_some]
end

mutual
theorem written_nest : ∀ e : LExpr, e.written.nest = e.nest
  | .str s => by simp [LExpr.written, SExpr.nest, LExpr.nest]
  | .num x => by simp [LExpr.written, SExpr.nest, LExpr.nest]
  | .op s => by simp [LExpr.written, SExpr.nest, LExpr.nest]
  | .list l => by simp only [LExpr.written, SExpr.nest, LExpr.nest, writtens_nest true l]
theorem writtens_nest (first : Bool) : ∀ l, (LExpr.writtens first l).nest = LExpr.nests l
  | [] => by simp [LExpr.writtens, SItems.nest, LExpr.nests]
  | e :: l => by simp only [LExpr.writtens, SItems.nest, LExpr.nests, written_nest e, writtens_nest false l]
end

/-! ## Numbers -/

/-- Neither a blank nor a closing parenthesis. -/
def Solid (c : UInt8) : Prop := ¬ IsSpace c ∧ c ≠ 0x29

theorem solid_split : ∀ {a b r r' : Bytes}, (∀ c ∈ a, Solid c) → (∀ c ∈ b, Solid c) → Ends r → Ends r' → a ++ r = b ++ r' → a = b ∧ r = r'
  | [], [], _, _, _, _, _, _, h => ⟨rfl, h⟩
  | [], c :: b, r, r', _, hb, hr, _, h => by
    have := hb c (List.mem_cons_self ..)
    rcases hr c (b ++ r') h with h1 | h1
    · exact absurd h1 this.1
    · exact absurd h1 this.2
  | c :: a, [], r, r', ha, _, _, hr', h => by
    have := ha c (List.mem_cons_self ..)
    rcases hr' c (a ++ r) h.symm with h1 | h1
    · exact absurd h1 this.1
    · exact absurd h1 this.2
  | c :: a, c' :: b, r, r', ha, hb, hr, hr', h => by
    simp only [List.cons_append, List.cons.injEq] at h
    obtain ⟨rfl, h⟩ := h
    obtain ⟨rfl, rfl⟩ := solid_split (fun x hx => ha x (List.mem_cons_of_mem _ hx)) (fun x hx => hb x (List.mem_cons_of_mem _ hx)) hr hr' h
    exact ⟨rfl, rfl⟩

theorem letter_solid {c : UInt8} (h : IsLetter c) : Solid c := by
  refine ⟨fun h' => ?_, fun h' => ?_⟩
  · rcases h' with rfl | rfl | rfl <;> (unfold IsLetter at h; revert h; decide)
  · subst h'; unfold IsLetter at h; revert h; decide

theorem digit_solid {c : UInt8} (h : IsDigit c) : Solid c := by
  refine ⟨fun h' => ?_, fun h' => ?_⟩
  · rcases h' with rfl | rfl | rfl <;> (unfold IsDigit at h; revert h; decide)
  · subst h'; unfold IsDigit at h; revert h; decide

theorem op_solid {w : Bytes} (h : IsWord w ∨ w ∈ symbols) : ∀ c ∈ w, Solid c := by
  intro c hc
  rcases h with ⟨a, l, rfl, ha, hl⟩ | h
  · rcases List.mem_cons.mp hc with rfl | hc
    · exact letter_solid ha
    · rcases hl c hc with h | h | rfl
      · exact letter_solid h
      · exact digit_solid h
      · unfold Solid IsSpace; decide
  · have : ∀ w ∈ symbols, ∀ c ∈ w, ¬ (c = 0x20 ∨ c = 0x09 ∨ c = 0x0A) ∧ c ≠ 0x29 := by decide
    exact this w h c hc

theorem sign_solid (neg : Bool) : ∀ c ∈ sign neg, Solid c := by
  cases neg
  · simp [sign]
  · simp [sign, Solid, IsSpace]

theorem fixed_solid {fmt : Float64 → Bytes} (hf : PrintsFixed fmt) (x : Float64) : ∀ c ∈ fmt x, Solid c := by
  rcases hf x with ⟨neg, ds, ds', _, h1, h2, h3⟩ | h | h | h
  · rw [h3]
    intro c hc
    simp only [List.append_assoc, List.mem_append, List.mem_cons] at hc
    rcases hc with hc | hc | rfl | hc
    · exact sign_solid neg c hc
    · exact digit_solid (h1 c hc)
    · unfold Solid IsSpace; decide
    · exact digit_solid (h2 c hc)
  all_goals rw [h]; simp [Solid, IsSpace]

/-- No printed number is written as a number. -/
theorem fixed_not_number {fmt : Float64 → Bytes} (hf : PrintsFixed fmt) (x : Float64) (neg : Bool) {ds : Bytes} (hd : ∀ c ∈ ds, IsDigit c) : fmt x ≠ sign neg ++ ds := by
  have key : ∀ c ∈ sign neg ++ ds, c = 0x2D ∨ IsDigit c := by
    intro c hc
    rcases List.mem_append.mp hc with hc | hc
    · cases neg
      · simp [sign] at hc
      · simp [sign] at hc; exact .inl hc
    · exact .inr (hd c hc)
  intro he
  rw [← he] at key
  rcases hf x with ⟨neg', ds1, ds2, _, _, _, h⟩ | h | h | h <;> rw [h] at key
  · exact absurd (key 0x2E (by simp)) (by unfold IsDigit; decide)
  · exact absurd (key 0x61 (by simp)) (by unfold IsDigit; decide)
  · exact absurd (key 0x49 (by simp)) (by unfold IsDigit; decide)
  · exact absurd (key 0x49 (by simp)) (by unfold IsDigit; decide)

/-- What a printed number begins with. -/
theorem fixed_head {fmt : Float64 → Bytes} (hf : PrintsFixed fmt) (x : Float64) : ∃ c t, fmt x = c :: t ∧ c ≠ 0x22 ∧ c ≠ 0x28 := by
  rcases hf x with ⟨neg, ds, ds', hne, hd, _, h⟩ | h | h | h
  · rw [h, List.append_assoc]
    cases neg
    · match ds, hne with
      | c :: ds, _ =>
        refine ⟨c, ds ++ 0x2E :: ds', rfl, ?_, ?_⟩ <;>
        · rintro rfl
          exact absurd (hd _ (List.mem_cons_self ..)) (by unfold IsDigit; decide)
    · exact ⟨0x2D, _, rfl, by decide, by decide⟩
  · exact ⟨_, _, h, by decide, by decide⟩
  · exact ⟨_, _, h, by decide, by decide⟩
  · exact ⟨_, _, h, by decide, by decide⟩

/-- What an expression begins with. -/
theorem bare_head {fmt : Float64 → Bytes} (hf : PrintsFixed fmt) : ∀ e : LExpr, e.Plain → ∃ c t, bare fmt e = c :: t ∧ Solid c
  | .str s, _ => ⟨0x22, s ++ [0x22], by simp [bare], by unfold Solid IsSpace; decide⟩
  | .num x, _ => by
    obtain ⟨c, t, h, _⟩ := fixed_head hf x
    exact ⟨c, t, by rw [bare, h], fixed_solid hf x c (by rw [h]; exact List.mem_cons_self ..)⟩
  | .op w, h => by
    unfold LExpr.Plain at h
    obtain ⟨c, l, h1, _⟩ := operator_head h
    exact ⟨c, l, by rw [bare, h1], op_solid h c (by rw [h1]; exact List.mem_cons_self ..)⟩
  | .list l, _ => ⟨0x28, joinWith [0x20] (bares fmt l) ++ [0x29], by simp [bare], by unfold Solid IsSpace; decide⟩

/-- What a written expression begins with. -/
theorem text_solid (e : SExpr) (he : e.Ok) : ∃ c t, e.text = c :: t ∧ Solid c := by
  match e, he with
  | .str w, _ => exact ⟨0x22, w ++ [0x22], by simp [SExpr.text], by unfold Solid IsSpace; decide⟩
  | .num neg ds, he =>
    unfold SExpr.Ok at he
    unfold SExpr.text
    cases neg
    · match ds, he with
      | c :: ds, he => exact ⟨c, ds, rfl, digit_solid (he.2 c (List.mem_cons_self ..))⟩
    · exact ⟨0x2D, ds, rfl, by unfold Solid IsSpace; decide⟩
  | .op w, he =>
    unfold SExpr.Ok at he
    obtain ⟨c, l, h1, _⟩ := operator_head he
    exact ⟨c, l, by rw [SExpr.text, h1], op_solid he c (by rw [h1]; exact List.mem_cons_self ..)⟩
  | .list l w, _ => exact ⟨0x28, l.text ++ w ++ [0x29], by simp [SExpr.text], by unfold Solid IsSpace; decide⟩

theorem tail_ends (fmt : Float64 → Bytes) (l : List LExpr) (r : Bytes) : Ends (bareTail fmt l ++ (0x29 :: r)) := by
  intro c s' h
  cases l with
  | nil => injection h with h _; exact .inr h.symm
  | cons e l => simp only [bareTail, List.cons_append, List.nil_append, List.append_assoc] at h; injection h with h _; exact .inl (.inl h.symm)

/-- The characters of an operator or number as it is written. -/
theorem atom_text {e : SExpr} (he : e.Ok) (hc : e.closed = false) : ∀ c ∈ e.text, Solid c := by
  match e, he, hc with
  | .num neg ds, he, _ =>
    unfold SExpr.Ok at he
    unfold SExpr.text
    intro c hc
    rcases List.mem_append.mp hc with hc | hc
    · exact sign_solid neg c hc
    · exact digit_solid (he.2 c hc)
  | .op w, he, _ => unfold SExpr.Ok at he; unfold SExpr.text; exact op_solid he

mutual
/-- If what is printed is the beginning of an expression as it is written then both end at the same place, and if it stands for what was
printed there are no numbers in it. -/
theorem bare_text {fmt : Float64 → Bytes} (hf : PrintsFixed fmt) (f : Int → Float64) : ∀ (e : LExpr), e.Plain → ∀ (e' : SExpr), e'.Ok → ∀ r r', Ends r → Ends r' →
    bare fmt e ++ r = e'.text ++ r' → r = r' ∧ (e'.val f = some e → e.NoNum)
  | .str s, hp, e', he', r, r', hr, hr', h => by
    unfold LExpr.Plain at hp
    refine ⟨?_, fun _ => by unfold LExpr.NoNum; trivial⟩
    have hhead : ∀ c t, e'.text = c :: t → c = 0x22 := by
      intro c t hc
      rw [hc] at h
      simp only [bare, List.cons_append, List.nil_append, List.cons.injEq] at h
      exact h.1.symm
    match e', he' with
    | .str w, he' =>
      unfold SExpr.Ok at he'
      simp only [bare, SExpr.text, List.cons_append, List.nil_append, List.append_assoc, List.cons.injEq, true_and] at h
      have : ∀ {a b : Bytes}, 0x22 ∉ a → 0x22 ∉ b → a ++ 0x22 :: r = b ++ 0x22 :: r' → r = r' := by
        intro a
        induction a with
        | nil =>
          intro b _ hb h
          cases b with
          | nil => simpa using h
          | cons c b => injection h with h _; exact absurd (h ▸ List.mem_cons_self ..) hb
        | cons c a ih =>
          intro b ha hb h
          cases b with
          | nil => injection h with h _; exact absurd (h ▸ List.mem_cons_self ..) ha
          | cons c' b =>
            injection h with h1 h2
            exact ih (fun hh => ha (List.mem_cons_of_mem _ hh)) (fun hh => hb (List.mem_cons_of_mem _ hh)) h2
      exact this hp.1 he' h
    | .num neg ds, he' =>
      unfold SExpr.Ok at he'
      exfalso
      match neg, ds, he'.1 with
      | true, ds, _ => exact absurd (hhead 0x2D ds rfl) (by decide)
      | false, c :: ds, _ =>
        have := hhead c ds rfl
        subst this
        exact absurd (he'.2 _ (List.mem_cons_self ..)) (by unfold IsDigit; decide)
    | .op w, he' =>
      unfold SExpr.Ok at he'
      obtain ⟨c, l, h1, _, _, h2, _⟩ := operator_head he'
      exact absurd (hhead c l (by rw [SExpr.text, h1])) h2
    | .list l w, _ => exact absurd (hhead 0x28 (l.text ++ w ++ [0x29]) (by simp [SExpr.text])) (by decide)
  | .num x, _, e', he', r, r', hr, hr', h => by
    obtain ⟨c, t, hc, h1, h2⟩ := fixed_head hf x
    cases hcl : e'.closed with
    | true =>
      exfalso
      rw [bare, hc] at h
      match e', hcl with
      | .str w, _ => simp only [SExpr.text, List.cons_append, List.nil_append, List.cons.injEq] at h; exact h1 h.1
      | .list l w, _ => simp only [SExpr.text, List.cons_append, List.nil_append, List.append_assoc, List.cons.injEq] at h; exact h2 h.1
    | false =>
      rw [bare] at h
      obtain ⟨h3, h4⟩ := solid_split (fixed_solid hf x) (atom_text he' hcl) hr hr' h
      refine ⟨h4, fun hv => ?_⟩
      match e', he', hcl with
      | .num neg ds, he', _ =>
        unfold SExpr.Ok at he'
        exact absurd h3 (fixed_not_number hf x neg he'.2)
      | .op w, _, _ => simp [SExpr.val] at hv
  | .op s, hp, e', he', r, r', hr, hr', h => by
    unfold LExpr.Plain at hp
    refine ⟨?_, fun _ => by unfold LExpr.NoNum; trivial⟩
    obtain ⟨c, l, hc, _, h1, h2, _⟩ := operator_head hp
    cases hcl : e'.closed with
    | true =>
      exfalso
      rw [bare, hc] at h
      match e', hcl with
      | .str w, _ => simp only [SExpr.text, List.cons_append, List.nil_append, List.cons.injEq] at h; exact h2 h.1
      | .list l w, _ => simp only [SExpr.text, List.cons_append, List.nil_append, List.append_assoc, List.cons.injEq] at h; exact h1 h.1
    | false =>
      rw [bare] at h
      exact (solid_split (op_solid hp) (atom_text he' hcl) hr hr' h).2
  | .list l, hp, e', he', r, r', hr, hr', h => by
    unfold LExpr.Plain at hp
    have hhead : ∀ c t, e'.text = c :: t → c = 0x28 := by
      intro c t hc
      rw [hc] at h
      simp only [bare, List.cons_append, List.nil_append, List.append_assoc, List.cons.injEq] at h
      exact h.1.symm
    match e', he' with
    | .str w, _ => exact absurd (hhead 0x22 (w ++ [0x22]) (by simp [SExpr.text])) (by decide)
    | .num neg ds, he' =>
      unfold SExpr.Ok at he'
      exfalso
      match neg, ds, he'.1 with
      | true, ds, _ => exact absurd (hhead 0x2D ds rfl) (by decide)
      | false, c :: ds, _ =>
        have := hhead c ds rfl
        subst this
        exact absurd (he'.2 _ (List.mem_cons_self ..)) (by unfold IsDigit; decide)
    | .op w, he' =>
      unfold SExpr.Ok at he'
      obtain ⟨c, l, h1, _, h2, _⟩ := operator_head he'
      exact absurd (hhead c l (by rw [SExpr.text, h1])) h2
    | .list l' w, he' =>
      unfold SExpr.Ok at he'
      simp only [bare, SExpr.text, List.cons_append, List.nil_append, List.append_assoc, List.cons.injEq, true_and] at h
      match l, hp with
      | [], _ =>
        simp only [bares, joinWith, List.nil_append] at h
        refine ⟨?_, fun _ => by simp [LExpr.NoNum, LExpr.NoNums]⟩
        match l', he'.1 with
        | .nil, _ =>
          simp only [SItems.text, List.nil_append] at h
          match w, he'.2 with
          | [], _ => simpa using h
          | c :: w, hw =>
            injection h with h _
            subst h
            exact absurd (hw _ (List.mem_cons_self ..)) (by unfold IsSpace; decide)
        | .cons w1 e1 l1, hl =>
          exfalso
          unfold SItems.Ok at hl
          simp only [SItems.text, List.append_assoc] at h
          match w1, hl.1 with
          | [], _ =>
            obtain ⟨c, t, h1, h2⟩ := text_solid e1 hl.2.2.1
            rw [h1] at h
            injection h with h _
            exact h2.2 h.symm
          | c :: w1, hw =>
            injection h with h _
            subst h
            exact absurd (hw _ (List.mem_cons_self ..)) (by unfold IsSpace; decide)
      | e :: l, hp =>
        unfold LExpr.Plains at hp
        rw [join_bares, List.append_assoc] at h
        obtain ⟨c, t, hc, hsol⟩ := bare_head hf e hp.1
        match l', he'.1 with
        | .nil, _ =>
          exfalso
          rw [hc] at h
          simp only [SItems.text, List.nil_append, List.cons_append] at h
          match w, he'.2 with
          | [], _ => injection h with h _; exact hsol.2 h
          | c' :: w, hw =>
            injection h with h _
            subst h
            exact hsol.1 (hw _ (List.mem_cons_self ..))
        | .cons w1 e1 l1, hl =>
          unfold SItems.Ok at hl
          simp only [SItems.text, List.append_assoc] at h
          match w1, hl.1 with
          | c' :: w1, hw =>
            exfalso
            rw [hc] at h
            injection h with h _
            subst h
            exact hsol.1 (hw _ (List.mem_cons_self ..))
          | [], _ =>
            obtain ⟨h1, h2⟩ := bare_text hf f e hp.1 e1 hl.2.2.1 (bareTail fmt l ++ (0x29 :: r)) (l1.text ++ (w ++ 0x29 :: r')) (tail_ends fmt l r)
              (items_ends hl.2.2.2 he'.2 r') (by simpa using h)
            obtain ⟨h3, h4⟩ := tail_text hf f l hp.2 l1 hl.2.2.2 w he'.2 r r' h1
            refine ⟨h3, fun hv => ?_⟩
            unfold SExpr.val SItems.vals at hv
            simp only [Option.map_eq_some_iff, Option.bind_eq_some_iff, LExpr.list.injEq, exists_eq_right] at hv
            obtain ⟨x, hx, xs, hxs, he⟩ := hv
            cases he
            unfold LExpr.NoNum LExpr.NoNums
            exact ⟨h2 hx, h4 hxs⟩
theorem tail_text {fmt : Float64 → Bytes} (hf : PrintsFixed fmt) (f : Int → Float64) : ∀ (l : List LExpr), LExpr.Plains l → ∀ (l' : SItems), l'.Ok false →
    ∀ w, (∀ c ∈ w, IsSpace c) → ∀ r r', bareTail fmt l ++ (0x29 :: r) = l'.text ++ (w ++ 0x29 :: r') → r = r' ∧ (l'.vals f = some l → LExpr.NoNums l)
  | [], _, .nil, _, w, hw, r, r', h => by
    refine ⟨?_, fun _ => by simp [LExpr.NoNums]⟩
    simp only [bareTail, SItems.text, List.nil_append] at h
    match w, hw with
    | [], _ => simpa using h
    | c :: w, hw =>
      injection h with h _
      subst h
      exact absurd (hw _ (List.mem_cons_self ..)) (by unfold IsSpace; decide)
  | [], _, .cons w1 e1 l1, hl, w, hw, r, r', h => by
    exfalso
    unfold SItems.Ok at hl
    simp only [bareTail, SItems.text, List.nil_append, List.append_assoc] at h
    match w1, hl.1, hl.2.1 rfl with
    | c :: w1, hw, _ =>
      injection h with h _
      subst h
      exact absurd (hw _ (List.mem_cons_self ..)) (by unfold IsSpace; decide)
  | e :: l, hp, .nil, _, w, hw, r, r', h => by
    exfalso
    unfold LExpr.Plains at hp
    obtain ⟨c, t, hc, hsol⟩ := bare_head hf e hp.1
    simp only [bareTail, hc, SItems.text, List.nil_append, List.append_assoc, List.cons_append] at h
    match w, hw with
    | [], _ => injection h with h _; exact absurd h (by decide)
    | [a], _ => injection h with _ h; injection h with h _; exact hsol.2 h
    | a :: b :: w, hw =>
      injection h with _ h
      injection h with h _
      subst h
      exact hsol.1 (hw _ (by simp))
  | e :: l, hp, .cons w1 e1 l1, hl, w, hw, r, r', h => by
    unfold LExpr.Plains at hp
    unfold SItems.Ok at hl
    obtain ⟨c, t, hc, hsol⟩ := bare_head hf e hp.1
    obtain ⟨c1, t1, hc1, hsol1⟩ := text_solid e1 hl.2.2.1
    simp only [bareTail, SItems.text, List.nil_append, List.append_assoc, List.cons_append] at h
    have hw1 : w1 = [0x20] := by
      match w1, hl.1, hl.2.1 rfl with
      | [a], _, _ => injection h with h _; rw [h]
      | a :: b :: w1, hsp, _ =>
        rw [hc] at h
        injection h with _ h
        injection h with h _
        subst h
        exact absurd (hsp _ (by simp)) hsol.1
    subst hw1
    simp only [List.cons_append, List.nil_append, List.cons.injEq, true_and] at h
    obtain ⟨h1, h2⟩ := bare_text hf f e hp.1 e1 hl.2.2.1 (bareTail fmt l ++ (0x29 :: r)) (l1.text ++ (w ++ 0x29 :: r')) (tail_ends fmt l r)
      (items_ends hl.2.2.2 hw r') h
    obtain ⟨h3, h4⟩ := tail_text hf f l hp.2 l1 hl.2.2.2 w hw r r' h1
    refine ⟨h3, fun hv => ?_⟩
    unfold SItems.vals at hv
    simp only [Option.map_eq_some_iff, Option.bind_eq_some_iff] at hv
    obtain ⟨x, hx, xs, hxs, he⟩ := hv
    cases he
    unfold LExpr.NoNums
    exact ⟨h2 hx, h4 hxs⟩
end

/-! ## A number on its own -/

/-- A number before a point. -/
theorem top_point {f : Int → Float64} {u : UserString} {N : Nat} {rs rn rw : Regex} (hf : Finds rs rn rw) (neg : Bool) {ds : Bytes} (hne : ds ≠ [])
    (hd : ∀ c ∈ ds, IsDigit c) (ds' : Bytes) :
    Yields (lispOps f u) N (lispLines rs rn rw) 5 (.lines (lispLines rs rn rw)) (sign neg ++ ds ++ 0x2E :: ds')
      (res ((number neg ds).map fun n => .num (f n)) (0x2E :: ds')) := by
  have hsp : NoneOf IsSpace (0x2E :: ds') := by
    intro c s h hc; cases h; exact absurd hc (by unfold IsSpace; decide)
  have hdg : NoneOf IsDigit (0x2E :: ds') := by
    intro c s h hc; cases h; exact absurd hc (by unfold IsDigit; decide)
  have h2 := number_text (f := f) (u := u) (N := N) (d := 1) (rs := rs) hf neg hne hd hdg
  have hr : called (lispOps f u) N none (res ((number neg ds).map fun n => .num (f n)) (0x2E :: ds')) = res ((number neg ds).map fun n => .num (f n)) (0x2E :: ds') := by
    cases number neg ds <;> rfl
  have h1 : Yields (lispOps f u) N (lispLines rs rn rw) 3 (.rule none (.rank (exprLines rs rn rw))) (sign neg ++ ds ++ 0x2E :: ds')
      (res ((number neg ds).map fun n => .num (f n)) (0x2E :: ds')) := by
    rw [← hr]
    refine Yields.rank (cb := none) (.altMiss (list_miss ?_) (.altMiss (string_miss ?_) (.altDone h2 (by cases number neg ds <;> simp [res]))))
    · intro s' h
      rcases sign_head neg hne hd _ h with h | h <;> revert h
      · decide
      · unfold IsDigit; decide
    · intro s' h
      rcases sign_head neg hne hd _ h with h | h <;> revert h
      · decide
      · unfold IsDigit; decide
  have h1 := yields_upTo h1 (d' := 4) (by omega)
  have hfo : formOf [VP.name "" "_" true, .name "" "expr" false, .name "" "_" true] = .single := by kernel_rfl
  have hns : NoneOf IsSpace (sign neg ++ ds ++ 0x2E :: ds') := by
    intro c s h hc
    rcases sign_head neg hne hd _ h with rfl | h
    · exact absurd hc (by unfold IsSpace; decide)
    · exact (digit_solid h).1 hc
  obtain ⟨v, h⟩ := blanks (f := f) (u := u) (N := N) (d := 2) (rs := rs) (rn := rn) (rw := rw) (w := []) (by simp) hns true
  have h1 := Yields.call (h := true) (lab := "") (q := false) (.inl rfl) mem_expr h1
  obtain ⟨v', h'⟩ := blanks (f := f) (u := u) (N := N) (d := 2) (rs := rs) (rn := rn) (rw := rw) (w := []) (by simp) hsp true
  have h2 : Yields (lispOps f u) N (lispLines rs rn rw) 4 (.part false topE.vp) (sign neg ++ ds ++ 0x2E :: ds') (res ((number neg ds).map fun n => .num (f n)) (0x2E :: ds')) := by
    rw [top_vp]
    refine Yields.bare (.inr rfl) (.seq ?_)
    rw [hfo]
    refine .itemsPut h rfl ?_
    cases hv : (number neg ds).map fun n => LExpr.num (f n) with
    | none => rw [hv] at h1; exact .itemsPanic h1
    | some x => rw [hv] at h1; exact .itemsPut h1 rfl (.itemsPut h' rfl (.itemsEnd rfl))
  have h3 := Yields.text (cb := none) h2
  rw [called_res] at h3
  exact .altDone h3 (by cases number neg ds <;> simp [res])

end Joeson.Lisp
