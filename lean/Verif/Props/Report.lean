import Verif.Props.Parse
import Verif.Spec.Report
/-!
# C70: what a parse error shows

`ParseString` reports an incomplete match as an error whose message shows, under the legend
OK / Parsing / Suspect / Unknown, four pieces of the text (grammar.go:138-152). The property a reader
expects is that the four pieces divide the text around the error. That is false; what each piece is,
exactly, is proved here.
-/

namespace Joeson
open Spec
variable {V H : Type}

/-- The message is built from the cursor, the furthest success and the furthest attempt. -/
theorem parseString_report (ops : Ops V H) (g : Grammar) (hg : g.Built) (tr : Trace)
    (opts : List ParseOption) (k : Nat) (h : H) (text : Bytes) (rep : Report) (s : St V H)
    (he : (parseString ops g tr opts k h text).1 = .ok (.error rep, s)) :
    ∃ att, s.pos ≤ rep.char ∧ rep.char ≤ att ∧ att ≤ text.length ∧ s.pos < text.length ∧
      (att = s.pos ∨ Attempted s g.numRules att) ∧ (∀ q, s.pos ≤ q → Attempted s g.numRules q → q ≤ att) ∧
      runeReport text s.pos rep.char att = .ok rep := by
  obtain ⟨att0, a1, a2, a3, a4, -, -, a5, a6, a7, a8⟩ := C36_error_position ops g hg tr opts k h text rep s he
  unfold parseString grammarParse at he
  extract_lets old tr' env restored at he
  cases hp : parse env k g.root (newState h 0) with
  | oof => rw [hp] at he; cases he
  | panic e => rw [hp] at he; cases he
  | ok x =>
    obtain ⟨r, s'⟩ := x
    rw [hp] at he
    dsimp only at he
    have hlen : (Stream.ofText text).len = text.length := rfl
    rw [hlen] at he
    split at he
    · obtain ⟨s1, s2, s3, s4, s5, s6, s7⟩ := scanRows_spec s' g.numRules (text.length + 1 - s'.pos) s'.pos s'.pos
        s'.pos (Nat.le_refl _) (Nat.le_refl _)
      generalize scanRows s' g.numRules s'.pos (text.length + 1 - s'.pos) (s'.pos, s'.pos) = sr at *
      obtain ⟨att, suc⟩ := sr
      dsimp only at *
      split at he
      · cases he
      · rename_i rep' hr
        cases he
        have hatt : att ≤ text.length := by rcases s4 with h | h <;> omega
        obtain ⟨rep2, hr2, hc, -⟩ := runeReport_ok text s.pos suc att s1 s2 hatt
        rw [hr] at hr2
        cases hr2
        subst hc
        refine ⟨att, s1, s2, hatt, a4, s4.imp_right fun h => h.2.2, ?_, hr⟩
        intro q h1 h2
        refine s6 q h1 ?_ h2
        have := a6 q h1 h2
        omega
    · cases r <;> cases he

/-! ## The pieces -/

theorem jsSlice_between (t : Bytes) (a b : Nat) : jsSlice t (a : Int) (b : Int) = between t a b := by
  unfold jsSlice between
  rw [zipIdx_filter_range]
  have e1 : jsIndex t.length (a : Int) = min a t.length := by unfold jsIndex; rw [if_neg (by omega)]; omega
  have e2 : jsIndex t.length (b : Int) = min b t.length := by unfold jsIndex; rw [if_neg (by omega)]; omega
  rw [e1, e2]
  by_cases h : a ≤ t.length
  · rw [Nat.min_eq_left h]
    simp only [Nat.sub_zero, Nat.max_eq_left (Nat.zero_le _)]
    rw [List.take_eq_take_iff]
    simp only [List.length_drop]
    omega
  · rw [List.drop_of_length_le (by omega), List.drop_of_length_le (by omega)]
    simp

theorem peekLines_before (c : RuneStream) (hc : c.Valid) :
    c.peekLines [-2] = .ok (lineRange c.text (lineAt c.text c.pos - 2) (lineAt c.text c.pos)) := by
  have := C08_peekLines_partial c hc (-2) []
  simp only [if_true, List.foldl_cons, List.foldl_nil] at this
  have hl := lines_length c.text
  have hle := newlines_take_le c.text c.pos
  rw [this (by omega) (by omega)]
  unfold lineRange lineAt
  congr 3
  · omega
  · congr 1; omega

theorem peekLines_after (c : RuneStream) (hc : c.Valid) :
    c.peekLines [2] = .ok (lineRange c.text (lineAt c.text c.pos) (lineAt c.text c.pos + 2)) := by
  have := C08_peekLines_partial c hc 2 []
  simp only [if_true, List.foldl_cons, List.foldl_nil] at this
  have hl := lines_length c.text
  have hle := newlines_take_le c.text c.pos
  rw [this (by omega) (by omega)]
  unfold lineRange lineAt
  congr 2
  rw [show (max 0 ((newlines (List.take c.pos c.text) : Int) + min 2 0)).toNat = newlines (List.take c.pos c.text) by omega]
  rw [List.take_eq_take_iff]
  simp only [List.length_drop]
  omega

/-- `PeekRunes(n)` on valid UTF-8 text, also for `n = 0`. -/
theorem peekRunes_zero (c : RuneStream) (hc : c.Valid) : c.peekRunes 0 = .ok [] := by
  unfold RuneStream.peekRunes
  have hs : goSlice c.text 0 (c.pos : Int) = .ok (c.text.take c.pos) := by
    have := goSlice_ok c.text 0 c.pos (by omega) hc.inside
    simpa using this
  rw [if_pos (by omega), hs]
  simp [bind, Except.bind, lastNRunes, lastNRunesLoop, pure, Except.pure]

theorem peekRunes_runes (text pre : Bytes) (rs : List Nat) (hrs : ∀ r ∈ rs, Scalar r) (ht : text = pre ++ utf8 rs)
    (n : Nat) : (runeAt text pre.length).peekRunes (n : Int) = .ok (utf8 (rs.take n)) := by
  by_cases h : n = 0
  · subst h
    exact peekRunes_zero _ (runeAt_valid text (by rw [ht]; simp))
  · exact C07_peek_forward (runeAt text pre.length) pre rs hrs ht rfl n (by omega)

theorem ascii_utf8 (t : Bytes) (ha : ∀ b ∈ t, b < 0x80) : utf8 (t.map UInt8.toNat) = t := by
  induction t with
  | nil => rfl
  | cons b t ih =>
    have hb : b.toNat < 0x80 := by have := ha b (by simp); exact UInt8.lt_iff_toNat_lt.mp this
    unfold utf8
    rw [List.map_cons, List.flatMap_cons]
    have h1 : utf8Nat b.toNat = [b.toNat] := by unfold utf8Nat; rw [if_pos hb]
    rw [h1]
    have h2 := ih fun x hx => ha x (List.mem_cons_of_mem _ hx)
    unfold utf8 at h2
    rw [h2]
    simp

theorem peekRunes_ascii (text : Bytes) (ha : ∀ b ∈ text, b < 0x80) (a b : Nat) (hab : a ≤ b) (hb : b ≤ text.length) :
    (runeAt text a).peekRunes ((b : Int) - (a : Int)) = .ok (between text a b) := by
  have hd : ∀ x ∈ text.drop a, x < 0x80 := fun x hx => ha x (List.mem_of_mem_drop hx)
  have hl : (text.take a).length = a := by simp; omega
  have key := peekRunes_runes text (text.take a) ((text.drop a).map UInt8.toNat) (by
      intro r hr
      obtain ⟨x, hx, rfl⟩ := List.mem_map.mp hr
      have := UInt8.lt_iff_toNat_lt.mp (hd x hx)
      have : x.toNat < 0x80 := this
      unfold Scalar
      omega) (by rw [ascii_utf8 _ hd, List.take_append_drop]) (b - a)
  rw [hl] at key
  rw [show (b : Int) - (a : Int) = ((b - a : Nat) : Int) by omega, key, ← List.map_take, ascii_utf8]
  · rfl
  · intro x hx; exact hd x (List.mem_of_mem_take hx)

/-- The whole message, in terms of the two calls of `PeekRunes`. -/
theorem runeReport_pieces (text : Bytes) (pos suc att : Nat) (h1 : pos ≤ suc) (h2 : suc ≤ att)
    (h3 : att ≤ text.length) (rep : Report) (hr : runeReport text pos suc att = .ok rep) :
    rep.printed = (between text (pos - 20) pos, between text pos (pos + 40)) ∧
    rep.ok = lineRange text (lineAt text pos - 2) (lineAt text pos) ∧
    (runeAt text pos).peekRunes ((suc : Int) - (pos : Int)) = .ok rep.parsing ∧
    (runeAt text suc).peekRunes ((att : Int) - (suc : Int)) = .ok rep.suspect ∧
    rep.unknown = lineRange text (lineAt text att) (lineAt text att + 2) := by
  have hv := runeAt_valid text (p := pos) (by omega)
  unfold runeReport at hr
  extract_lets c at hr
  subst c
  obtain ⟨hline, hcol⟩ := C02_line_col (runeAt text pos) hv suc (by show suc ≤ text.length; omega)
  rw [hcol] at hr
  unfold RuneStream.printSlices at hr
  simp only [C14_sliceString_js] at hr
  rw [peekLines_before _ hv] at hr
  obtain ⟨par, hpar⟩ := peekRunes_nonneg_ok _ hv ((suc : Int) - (pos : Int)) (by omega)
  rw [hpar] at hr
  have hset : ∀ p q : Nat, q ≤ text.length → (runeAt text p).setPos (q : Int) = .ok (runeAt text q) := by
    intro p q hq
    unfold RuneStream.setPos
    rw [if_neg]
    · rfl
    · have : (runeAt text p).text = text := rfl
      rw [this]; omega
  rw [hset pos suc (by omega)] at hr
  have hv2 := runeAt_valid text (p := suc) (by omega)
  obtain ⟨sus, hsus⟩ := peekRunes_nonneg_ok _ hv2 ((att : Int) - ((runeAt text suc).pos : Int)) (by
    show 0 ≤ (att : Int) - (suc : Int); omega)
  simp only [bind, Except.bind] at hr
  rw [hsus] at hr
  dsimp only at hr
  rw [hset suc att (by omega)] at hr
  dsimp only at hr
  rw [peekLines_after _ (runeAt_valid text h3)] at hr
  cases hr
  refine ⟨?_, rfl, hpar, hsus, rfl⟩
  have hp : (runeAt text pos).pos = pos := rfl
  have ht : (runeAt text pos).text = text := rfl
  rw [hp, ht]
  have e1 : goMax 0 ((pos : Int) - 20) = ((pos - 20 : Nat) : Int) := by unfold goMax; split <;> omega
  have e2 : (pos : Int) + 40 = ((pos + 40 : Nat) : Int) := by omega
  rw [e1, e2, jsSlice_between, jsSlice_between]

/-! ## C70 -/

namespace Sample

/-- `S: A '\\n' B ';' C`, `A: 'one'`, `B: 'b' | 'é'`, `C: 'c'` (not part of /repo). -/
def oneLine : Grammar where
  rules := [
    .seq (ri "S") .array [ref "A", lit "\n", ref "B", lit ";", ref "C"],
    .str (ri "A") (asc "one"),
    .choice (ri "B") [.str {} (asc "b"), .str {} (utf8 [0xE9])],
    .str (ri "C") (asc "c")]
  lookup := lookupIn [("S", 0), ("A", 1), ("B", 2), ("C", 3)]
  root := .choice {} [.rule 0]

theorem oneLine_built : oneLine.Built :=
  Grammar.built_of_checks _ _ rfl (by decide +kernel) (by decide +kernel) (by decide +kernel)

/-- The four pieces of an error. -/
def piecesOf {V H : Type} (x : Out (Outcome V × St V H) × Trace) : Option (Nat × Nat × List Bytes) :=
  match x.1 with
  | .ok (.error r, s) => some (s.pos, r.char, [r.ok, r.parsing, r.suspect, r.unknown])
  | _ => none

end Sample

/-- C70, what holds: the pieces of the message of a parse error of an ASCII text. `Print` shows the 20
bytes before the end of the match and the 40 after it; Parsing is the text from there to the reported
position, Suspect from there to the furthest position at which a rule was tried. OK is the line on
which the match ends, whole, with the two lines before it; Unknown is the line of the furthest
attempt, whole, with the two lines after it. What is missing: that the four pieces divide the text,
see `C70_single_line` and `C70_not_divided`; and texts that are not ASCII, see `C70_runes` and
`C70_non_ascii_shows_too_much`. -/
theorem C70_parts_partial (ops : Ops V H) (g : Grammar) (hg : g.Built) (tr : Trace)
    (opts : List ParseOption) (k : Nat) (h : H) (text : Bytes) (ha : ∀ b ∈ text, b < 0x80) (rep : Report) (s : St V H)
    (he : (parseString ops g tr opts k h text).1 = .ok (.error rep, s)) :
    ∃ att, s.pos ≤ rep.char ∧ rep.char ≤ att ∧ att ≤ text.length ∧
      (att = s.pos ∨ Attempted s g.numRules att) ∧ (∀ q, s.pos ≤ q → Attempted s g.numRules q → q ≤ att) ∧
      rep.printed = (between text (s.pos - 20) s.pos, between text s.pos (s.pos + 40)) ∧
      rep.ok = lineRange text (lineAt text s.pos - 2) (lineAt text s.pos) ∧
      rep.parsing = between text s.pos rep.char ∧
      rep.suspect = between text rep.char att ∧
      rep.unknown = lineRange text (lineAt text att) (lineAt text att + 2) := by
  obtain ⟨att, h1, h2, h3, h4, h5, h6, hr⟩ := parseString_report ops g hg tr opts k h text rep s he
  obtain ⟨e1, e2, e3, e4, e5⟩ := runeReport_pieces text s.pos rep.char att h1 h2 h3 rep hr
  refine ⟨att, h1, h2, h3, h5, h6, e1, e2, ?_, ?_, e5⟩
  · rw [peekRunes_ascii text ha _ _ h1 (by omega)] at e3
    exact (Except.ok.inj e3).symm
  · rw [peekRunes_ascii text ha _ _ h2 h3] at e4
    exact (Except.ok.inj e4).symm

/-- An error in a text of three lines: nothing matched, the furthest success is `b` on the second line,
the furthest attempt is `z`. -/
example : (∀ b ∈ asc "one\nb;z\nlast", b < 0x80) ∧ Sample.oneLine.Built ∧
    Sample.piecesOf (parseString Sample.ops Sample.oneLine {} [] 60 () (asc "one\nb;z\nlast")) =
      some (0, 4, [asc "one", asc "one\n", asc "b;", asc "b;z\nlast"]) := by
  refine ⟨by decide +kernel, Sample.oneLine_built, by decide +kernel⟩

/-- C70, the division is false: the four pieces of this error, one after the other, are not a part of
the text. -/
theorem C70_not_divided : ∃ (rep : Report) (s : St Ast Unit),
    (parseString Sample.ops Sample.oneLine {} [] 60 () (asc "one\nb;z\nlast")).1 = .ok (.error rep, s) ∧
    ¬ (rep.ok ++ rep.parsing ++ rep.suspect ++ rep.unknown) <:+: asc "one\nb;z\nlast" := by
  have h : Sample.piecesOf (parseString Sample.ops Sample.oneLine {} [] 60 () (asc "one\nb;z\nlast")) =
      some (0, 4, [asc "one", asc "one\n", asc "b;", asc "b;z\nlast"]) := by decide +kernel
  unfold Sample.piecesOf at h
  split at h
  · rename_i r s he
    simp only [Option.some.injEq, Prod.mk.injEq, List.cons.injEq, and_true] at h
    obtain ⟨-, -, h1, h2, h3, h4⟩ := h
    refine ⟨r, s, he, ?_⟩
    rw [h1, h2, h3, h4]
    decide +kernel
  · cases h

/-- C70, any valid UTF-8 after the match: offsets count bytes but `PeekRunes` counts code points, so
Parsing shows as many code points as there are bytes up to the reported position (C70 asks for those
bytes). -/
theorem C70_runes (ops : Ops V H) (g : Grammar) (hg : g.Built) (tr : Trace)
    (opts : List ParseOption) (k : Nat) (h : H) (pre : Bytes) (rs : List Nat) (hrs : ∀ r ∈ rs, Scalar r)
    (rep : Report) (s : St V H)
    (he : (parseString ops g tr opts k h (pre ++ utf8 rs)).1 = .ok (.error rep, s)) :
    (s.pos = pre.length → rep.parsing = utf8 (rs.take (rep.char - s.pos))) ∧
    (rep.char = pre.length → ∃ att, rep.char ≤ att ∧ (att = s.pos ∨ Attempted s g.numRules att) ∧
      (∀ q, s.pos ≤ q → Attempted s g.numRules q → q ≤ att) ∧ rep.suspect = utf8 (rs.take (att - rep.char))) := by
  obtain ⟨att, h1, h2, h3, h4, h5, h6, hr⟩ := parseString_report ops g hg tr opts k h _ rep s he
  obtain ⟨e1, e2, e3, e4, e5⟩ := runeReport_pieces _ s.pos rep.char att h1 h2 h3 rep hr
  constructor
  · intro hp
    rw [show (rep.char : Int) - (s.pos : Int) = ((rep.char - s.pos : Nat) : Int) by omega] at e3
    rw [hp, peekRunes_runes _ pre rs hrs rfl] at e3
    rw [hp]
    exact (Except.ok.inj e3).symm
  · intro hp
    refine ⟨att, h2, h5, h6, ?_⟩
    rw [show (att : Int) - (rep.char : Int) = ((att - rep.char : Nat) : Int) by omega] at e4
    rw [hp, peekRunes_runes _ pre rs hrs rfl] at e4
    rw [hp]
    exact (Except.ok.inj e4).symm

/-- C70, counterexample for text that is not ASCII: the furthest success is at 4, the furthest attempt
at 7; the bytes between are `é;` but Suspect shows `é;z`. -/
theorem C70_non_ascii_shows_too_much :
    Sample.piecesOf (parseString Sample.ops Sample.oneLine {} [] 60 () (asc "one\n" ++ utf8 [0xE9, 0x3B, 0x7A])) =
      some (0, 4, [asc "one", asc "one\n", utf8 [0xE9, 0x3B, 0x7A], utf8 [0xE9, 0x3B, 0x7A]]) ∧
    between (asc "one\n" ++ utf8 [0xE9, 0x3B, 0x7A]) 4 7 = utf8 [0xE9, 0x3B] := by decide +kernel

theorem lines_single (t : Bytes) (h : (0x0A : UInt8) ∉ t) : lines t = [t] := by
  induction t with
  | nil => rfl
  | cons b t ih =>
    unfold lines
    rw [if_neg (fun hb => h (by simp [hb])), ih fun hm => h (List.mem_cons_of_mem _ hm)]

theorem lineAt_single (t : Bytes) (h : (0x0A : UInt8) ∉ t) (p : Nat) : lineAt t p = 0 := by
  unfold lineAt newlines
  exact List.count_eq_zero_of_not_mem fun hm => h (List.mem_of_mem_take hm)

/-- C70, the division is false for every error in a text of one line, ASCII or not: both OK and Unknown
are the whole text, so the pieces are longer than the text. -/
theorem C70_single_line (ops : Ops V H) (g : Grammar) (hg : g.Built) (tr : Trace)
    (opts : List ParseOption) (k : Nat) (h : H) (text : Bytes) (h1 : (0x0A : UInt8) ∉ text) (rep : Report) (s : St V H)
    (he : (parseString ops g tr opts k h text).1 = .ok (.error rep, s)) :
    rep.ok = text ∧ rep.unknown = text ∧ ∀ a b, text ≠ a ++ (rep.ok ++ rep.parsing ++ rep.suspect ++ rep.unknown) ++ b := by
  obtain ⟨att, i1, i2, i3, i4, i5, i6, hr⟩ := parseString_report ops g hg tr opts k h _ rep s he
  obtain ⟨e1, e2, e3, e4, e5⟩ := runeReport_pieces _ s.pos rep.char att i1 i2 i3 rep hr
  have hone : ∀ j, lineRange text 0 j = text := by
    intro j
    unfold lineRange
    rw [lines_single text h1]
    simp [joinLines]
  rw [lineAt_single text h1, hone] at e2
  rw [lineAt_single text h1, hone] at e5
  refine ⟨e2, e5, ?_⟩
  intro a b hab
  have := congrArg List.length hab
  rw [e2, e5] at this
  simp only [List.length_append] at this
  omega

example : (0x0A : UInt8) ∉ asc "1-2-x" ∧
    Sample.piecesOf (parseString Sample.ops Sample.minus {} [] 60 () (asc "1-2-x")) =
      some (3, 3, [asc "1-2-x", [], asc "-", asc "1-2-x"]) := by decide +kernel

end Joeson
