import Verif.Proofs.TokenStream
import Verif.Props.Parse
import Verif.Props.Tracing
/-!
# C09, C10, C11, C12, C38: token streams
-/

namespace Joeson
open Spec
variable {V H : Type}

/-! ## C09 -/

/-- C09: a work offset inside token `t` maps to `t`'s original offset plus the offset inside `t`. What is
missing: the last token of a stream of two or more, for which `C09_last_token` gives the wrong offset the code
computes instead. -/
theorem C09_position_partial (c : TokenStream) (hc : Contiguous c.tokens) (pre post : List Token) (t : Token)
    (he : c.tokens = pre ++ t :: post) (hp : post ≠ [] ∨ pre = []) (w : Int)
    (h1 : t.work ≤ w) (h2 : w < t.work + t.repr.length) :
    (c.coords w).originalOffset = t.orig + (w - t.work) ∧ (c.coords w).offsetInToken = w - t.work ∧
      (c.coords w).nToken = pre.length := by
  have hl := (contiguous_iff _).mp hc
  rw [he] at hl
  unfold TokenStream.coords
  rw [he]
  rcases post with _ | ⟨x, xs⟩
  · rcases hp with hp | rfl
    · exact absurd rfl hp
    · have hw : t.work = 0 := hl.1
      rw [show coordsLoop w ⟨[], 0, 0⟩ 0 ([] ++ [t]) = some (⟨[], 0, 0⟩, t, 0) from rfl]
      simp [hw]
  · rw [coordsLoop_inside (by simp) h1 h2 pre 0 _ 0 hl]
    simp

/-- C09, what the code does on the last token of a stream of two or more: the original offset is too large
by the length of the token before. -/
theorem C09_last_token (c : TokenStream) (hc : Contiguous c.tokens) (pre : List Token) (p t : Token)
    (he : c.tokens = pre ++ [p, t]) (w : Int) (h1 : t.work ≤ w) :
    (c.coords w).originalOffset = t.orig + (w - t.work) + p.repr.length ∧ (c.coords w).nToken = pre.length + 1 := by
  have hl := (contiguous_iff _).mp hc
  rw [he] at hl
  have hpt : t.work = p.work + p.repr.length := by
    have ht := (laidFrom_iff _ _).mp hl (pre ++ [p]) t [] (by simp)
    have hp := (laidFrom_iff _ _).mp hl pre p [t] rfl
    rw [joined_append, List.length_append, joined_cons, joined_nil, List.append_nil] at ht
    push_cast at ht
    omega
  unfold TokenStream.coords
  rw [he, coordsLoop_last h1 pre 0 _ 0 hl]
  dsimp only
  exact ⟨by omega, by omega⟩

/-- C09: line and column are those of the mapped offset in the original text. -/
theorem C09_line_col (text : Bytes) (tokens : List Token) (w : Int) (o : Nat) (ho : o ≤ text.length)
    (hw : ((TokenStream.new text tokens).coords w).originalOffset = o) :
    (TokenStream.new text tokens).posToLine w = newlines (text.take o) ∧
    (TokenStream.new text tokens).posToCol w = .ok ((afterLastNewline (text.take o)).length : Int) := by
  obtain ⟨h1, h2⟩ := C02_line_col (runeAt text 0) (runeAt_valid text (Nat.zero_le _)) o ho
  unfold TokenStream.posToCol TokenStream.posToLine
  rw [hw]
  exact ⟨h1, h2⟩

/-- `ab` at 0, `cd` at 4 on the second line, `e` at 7. -/
def Sample.twoLines : TokenStream := TokenStream.new (asc "ab\n cd e") [⟨asc "ab", 0, 0⟩, ⟨asc "cd", 4, 2⟩, ⟨asc "e", 7, 4⟩]

example : (Sample.twoLines.coords 3).originalOffset = 5 ∧ Sample.twoLines.posToLine 3 = 1 ∧
    Sample.twoLines.posToCol 3 = .ok 2 ∧ Contiguous Sample.twoLines.tokens := by
  refine ⟨by decide +kernel, by decide +kernel, by decide +kernel, (contiguous_iff _).mpr ?_⟩
  exact ⟨rfl, rfl, rfl, trivial⟩

/-- C09: without tokens every position is the start of the text: first token, line 0, column 0. -/
theorem C09_no_tokens (text : Bytes) (w : Int) :
    ((TokenStream.new text []).coords w).nToken = 0 ∧ ((TokenStream.new text []).coords w).offsetInToken = 0 ∧
      ((TokenStream.new text []).coords w).originalOffset = 0 ∧
      (TokenStream.new text []).posToLine w = 0 ∧ (TokenStream.new text []).posToCol w = .ok 0 := by
  refine ⟨rfl, rfl, rfl, ?_⟩
  have := C09_line_col text [] w 0 (Nat.zero_le _) rfl
  exact this

example : (TokenStream.new (asc "\n// nothing") []).posToCol 5 = .ok 0 := by decide +kernel

/-- C09, counterexample: `e` is at offset 7 of `ab⏎ cd e` (length 8), the code says 9. -/
theorem C09_last_token_outside_text :
    (Sample.twoLines.coords 4).originalOffset = 9 ∧ Sample.twoLines.original.length = 8 ∧
    Sample.twoLines.posToCol 4 = .ok 6 := by
  decide +kernel

/-! ## C10 -/

/-- C10: tokens made from scanner output are laid out contiguously and the work text is their
concatenation, whatever the scanner returns. -/
theorem C10_contiguous (scan : Bytes → Scanner) (source : Bytes) (hist : List ScanError) (c : TokenStream)
    (h : (tokenStreamFromGoCode scan source hist).1 = .stream c) :
    Contiguous c.tokens ∧ c.work = joined c.tokens ∧ c.original = source ∧ c.workOffset = 0 := by
  unfold tokenStreamFromGoCode at h
  extract_lets sc errs at h
  split at h
  · split at h <;> cases h
  · cases h
    refine ⟨(contiguous_iff _).mpr ?_, ?_, rfl, rfl⟩
    · exact goTokensLoop_laid sc.toks 0 []
    · show (goTokensLoop 0 [] sc.toks).flatMap (·.repr) = _
      rw [joined, List.flatMap_def]
      rfl

theorem getLast?_eq_append {α : Type} {l : List α} {x : α} (h : l.getLast? = some x) : ∃ pre, l = pre ++ [x] := by
  rw [List.getLast?_eq_some_iff] at h
  exact h

theorem needsSpaceAfter_iff (b : Bytes) : needsSpaceAfter b = true ↔ EndsInWord b := by
  have key : ∀ x : UInt8, ((0x61 ≤ x && x ≤ 0x7A) || (0x41 ≤ x && x ≤ 0x5A) || (0x30 ≤ x && x ≤ 0x39) || x == 0x5F || x == 0x3D) = true ↔
      x ∈ asc "abcdefghijklmnopqrstuvwxyzABCDEFGHIJKLMNOPQRSTUVWXYZ0123456789_=" := by
    intro x
    have : ∀ n : Fin 256, (((0x61 ≤ UInt8.ofNat n && UInt8.ofNat n ≤ 0x7A) || (0x41 ≤ UInt8.ofNat n && UInt8.ofNat n ≤ 0x5A) ||
        (0x30 ≤ UInt8.ofNat n && UInt8.ofNat n ≤ 0x39) || UInt8.ofNat n == 0x5F || UInt8.ofNat n == 0x3D) = true ↔
        UInt8.ofNat n ∈ asc "abcdefghijklmnopqrstuvwxyzABCDEFGHIJKLMNOPQRSTUVWXYZ0123456789_=") := by decide +kernel
    have h := this ⟨x.toNat, UInt8.toNat_lt x⟩
    simpa using h
  unfold needsSpaceAfter EndsInWord
  cases hl : b.getLast? with
  | none =>
    rw [List.getLast?_eq_none_iff] at hl
    subst hl
    simp
  | some x =>
    obtain ⟨pre, rfl⟩ := getLast?_eq_append hl
    dsimp only
    rw [key x]
    constructor
    · intro h; exact ⟨pre, x, rfl, h⟩
    · rintro ⟨pre', y, he, hy⟩
      have := (List.append_inj' he rfl).2
      cases this
      exact hy

/-- Scanner tokens and the tokens made of them, one by one, with the text before. -/
inductive Tokenised : Bytes → List ScanTok → List Token → Prop
  | nil {prev} : Tokenised prev [] []
  | cons {prev t l tok toks} : tok.orig = t.offset →
      (tok.repr = scanText t ∨ (tok.repr = asc " " ++ scanText t ∧ EndsInWord prev)) →
      (EndsInWord prev → t.lit ≠ [] → ¬ (t.tokStr = asc ";" ∧ t.lit = asc "\n") → tok.repr = asc " " ++ scanText t) →
      Tokenised tok.repr l toks → Tokenised prev (t :: l) (tok :: toks)

/-- C10: each scanner token gives one token at its own offset, with its text, preceded by a space only after a
letter, digit, `_` or `=`; and always, for identifiers, keywords and literals, so that words are never glued
together. -/
theorem C10_texts (l : List ScanTok) : ∀ (n : Int) (prev : Bytes), Tokenised prev l (goTokensLoop n prev l) := by
  induction l with
  | nil => intro n prev; exact .nil
  | cons t l ih =>
    intro n prev
    refine .cons rfl ?_ ?_ (ih _ _)
    · show goTokenText prev t = _ ∨ (goTokenText prev t = _ ∧ _)
      unfold goTokenText scanText
      split
      · exact Or.inl rfl
      · by_cases hl : t.lit = []
        · rw [if_neg (by simpa using hl), if_pos hl]
          cases hn : needsSpaceAfter prev && t.isComma with
          | false => exact Or.inl rfl
          | true =>
            simp only [Bool.and_eq_true] at hn
            exact Or.inr ⟨rfl, (needsSpaceAfter_iff _).mp hn.1⟩
        · rw [if_pos (by simpa using hl), if_neg hl]
          cases hn : needsSpaceAfter prev with
          | false => exact Or.inl rfl
          | true => exact Or.inr ⟨rfl, (needsSpaceAfter_iff _).mp hn⟩
    · intro hw hl hs
      show goTokenText prev t = _
      unfold goTokenText scanText
      rw [if_neg hs, if_pos hl, if_pos ((needsSpaceAfter_iff _).mpr hw), if_neg hs, if_neg hl]

/-- `a b,c`: an identifier after an identifier, a comma, an identifier, and the automatic semicolon. -/
def Sample.scanned : List ScanTok :=
  [⟨0, asc "IDENT", asc "a", false⟩, ⟨2, asc "IDENT", asc "b", false⟩, ⟨3, asc ",", [], true⟩,
    ⟨4, asc "IDENT", asc "c", false⟩, ⟨5, asc ";", asc "\n", false⟩]

example : joined (goTokensLoop 0 [] Sample.scanned) = asc "a b ,c;\n" ∧
    (goTokensLoop 0 [] Sample.scanned).map (·.work) = [0, 1, 3, 5, 6] := by decide +kernel

/-- C09, counterexample for tokens with an inserted space: in `a b,c` the identifier `b` is at offset 2 of
the source and at offset 2 of the work text `a b ,c;⏎`, which maps to 3. -/
theorem C09_inserted_space :
    ((TokenStream.new (asc "a b,c") (goTokensLoop 0 [] Sample.scanned)).coords 2).originalOffset = 3 ∧
    (asc "a b,c")[2]? = (asc "b")[0]? ∧
    (TokenStream.new (asc "a b,c") (goTokensLoop 0 [] Sample.scanned)).work[2]? = (asc "b")[0]? := by
  decide +kernel

/-! ## C11 -/

/-- C11: errors found while the scanner reads the first character are returned, by a first call. What is missing:
errors found later are not returned, and later calls depend on earlier ones; see below. -/
theorem C11_first_call_partial (scan : Bytes → Scanner) (source : Bytes) (h : (scan source).initErrors ≠ []) :
    (tokenStreamFromGoCode scan source []).1 = .errors (scan source).initErrors := by
  unfold tokenStreamFromGoCode
  extract_lets sc errs
  have : sc.initErrors.length > 0 := List.length_pos_iff.mpr h
  rw [if_pos this]
  have he : errs = sc.initErrors := by simp [errs]
  rw [if_neg (by rw [he]; simp)]
  rw [he]

/-- C11, counterexample in general form: an error found after the first character is never returned, whatever
the source, the scanner and the history. -/
theorem C11_scan_errors_ignored (scan : Bytes → Scanner) (source : Bytes) (hist : List ScanError)
    (h : (scan source).initErrors = []) :
    ∃ c, (tokenStreamFromGoCode scan source hist).1 = .stream c := by
  unfold tokenStreamFromGoCode
  extract_lets sc errs
  have : ¬ sc.initErrors.length > 0 := by simp [sc, h]
  rw [if_neg this]
  exact ⟨_, rfl⟩

/-- C11, counterexample in general form: once any error was reported by any call, a source with an error in its first
character makes the call panic instead of returning the error. -/
theorem C11_later_call_panics (scan : Bytes → Scanner) (source : Bytes) (hist : List ScanError)
    (h : (scan source).initErrors ≠ []) (hh : hist ≠ []) :
    (tokenStreamFromGoCode scan source hist).1 = .panic .assertion := by
  unfold tokenStreamFromGoCode
  extract_lets sc errs
  have : sc.initErrors.length > 0 := List.length_pos_iff.mpr h
  rw [if_pos this]
  have he : sc.initErrors.length ≠ errs.length := by
    have := List.length_pos_iff.mpr hh
    simp only [errs, List.length_append]
    omega
  rw [if_pos he]

/-- A history of calls: their outcomes. -/
def goHistory (scan : Bytes → Scanner) : List ScanError → List Bytes → List GoResult
  | _, [] => []
  | errs, src :: rest =>
    let (r, errs) := tokenStreamFromGoCode scan src errs
    r :: goHistory scan errs rest

/-- C11: in a history of calls without errors in the first character, every call gives what it would give as the first
call. -/
theorem C11_history_partial (scan : Bytes → Scanner) (l : List Bytes) (hl : ∀ src ∈ l, (scan src).initErrors = []) :
    ∀ errs, goHistory scan errs l = l.map fun src => (tokenStreamFromGoCode scan src []).1 := by
  induction l with
  | nil => intro errs; rfl
  | cons src l ih =>
    intro errs
    have h0 := hl src (by simp)
    have key : ∀ errs, (tokenStreamFromGoCode scan src errs).1 =
        .stream (TokenStream.new src (goTokensLoop 0 [] (scan src).toks)) := by
      intro errs
      unfold tokenStreamFromGoCode
      extract_lets sc e
      have : ¬ sc.initErrors.length > 0 := by simp [sc, h0]
      rw [if_neg this]
    rw [goHistory, List.map_cons, ← ih (fun s hs => hl s (by simp [hs])) (tokenStreamFromGoCode scan src errs).2]
    dsimp only
    rw [key errs, key []]

/-- A scanner that complains about a leading NUL (as Go's does) and about `#`. -/
def Sample.scanner : Bytes → Scanner := fun src =>
  { initErrors := if src.head? = some 0 then [⟨1, "illegal character NUL"⟩] else []
    toks := []
    scanErrors := if (0x23 : UInt8) ∈ src then [⟨2, "illegal character U+0023"⟩] else [] }

/-- C11, counterexample: `a#` gives no error; the NUL source gives its error when called first and a panic when
called after `a#`. -/
theorem C11_history_dependent :
    (goHistory Sample.scanner [] [[0]]).map (fun r => match r with | .errors l => some l | _ => none) =
      [some [⟨1, "illegal character NUL"⟩]] ∧
    (goHistory Sample.scanner [] [asc "a#", [0]]).map (fun r => match r with | .panic p => some p | _ => none) =
      [none, some .assertion] := by
  decide +kernel

/-! ## C12 -/

/-- C12: without tracing, `ParseTokens` on a fresh stream gives the same value, nil, error position, panic, heap of
values and callbacks as `ParseString` on the joined token texts, for every grammar, contiguous token list and
callbacks, when values do not record line numbers (lines are those of the original text). -/
theorem C12_tokens_equal_text (ops : Ops V H) (g : Grammar) (tr : Trace) (opts : List ParseOption) (k : Nat) (h : H)
    (text : Bytes) (tokens : List Token) (hl : Contiguous tokens) (ho : ∀ t ∈ tokens, 0 ≤ t.orig)
    (hop : ∀ v o h l, ops.origin v { o with line := l } h = ops.origin v o h)
    (hs : tr.stack = false) (hlp : tr.loop = false) (hd : ∀ n ∈ g.rules, n.info.debug = false)
    (hopt : ParseOption.debug true ∉ opts) :
    seenBrief (parseTokens ops g tr opts k h (TokenStream.new text tokens)).1 =
      seenBrief (parseString ops g tr opts k h (joined tokens)).1 := by
  have := parseTokens_text ops g tr opts opts k h (TokenStream.new text tokens) rfl rfl hl ho hop hs hlp hd hopt hopt
  rw [this]
  show seenBrief (parseString ops g tr opts k h (tokens.flatMap (·.repr))).1 = _
  rw [List.flatMap_def]
  rfl

/-- C12: a token stream matches, searches and peeks in the work text exactly like a rune stream on that text
at the same position, panics included. -/
theorem C12_same_matching (c : TokenStream) (p : Nat) :
    (∀ b, ((c.withPos p).matchString b).map (fun x => (x.1, x.2.workOffset)) =
      ((runeAt c.work p).matchString b).map (fun x => (x.1, x.2.pos))) ∧
    (∀ re, ((c.withPos p).matchRegexp re).map (fun x => (x.1, x.2.workOffset)) =
      ((runeAt c.work p).matchRegexp re).map (fun x => (x.1, x.2.pos))) ∧
    (∀ f, ((c.withPos p).matchRune f).map (fun x => (x.1, x.2.workOffset)) =
      ((runeAt c.work p).matchRune f).map (fun x => (x.1, x.2.pos))) ∧
    (∀ b, ((c.withPos p).getUntil b).map (fun x => (x.1, x.2.workOffset)) =
      ((runeAt c.work p).getUntil b).map (fun x => (x.1, x.2.pos))) ∧
    (∀ n, (c.withPos p).peekRunes n = (runeAt c.work p).peekRunes n) ∧
    (∀ n, ((c.withPos p).setPos n).map (·.workOffset) = ((runeAt c.work p).setPos n).map (·.pos)) := by
  have hset : ∀ n, ((c.withPos p).setPos n).map (·.workOffset) = ((runeAt c.work p).setPos n).map (·.pos) := by
    intro n
    unfold TokenStream.setPos RuneStream.setPos
    have h1 : (c.withPos p).work = c.work := rfl
    have h2 : (runeAt c.work p).text = c.work := rfl
    rw [h1, h2]
    by_cases h : n < 0 ∨ n > (c.work.length : Int)
    · rw [if_pos h, if_pos h]; rfl
    · rw [if_neg h, if_neg h]; rfl
  refine ⟨fun b => ?_, fun re => ?_, fun f => ?_, fun b => ?_, fun n => tokens_peekRunes c p n, hset⟩
  · have := tokens_matchString c p b
    unfold Stream.ofTokens Stream.ofText at this
    simp only [bind, Except.bind, pure, Except.pure] at this
    unfold Except.map
    revert this
    cases (c.withPos p).matchString b <;> cases (runeAt c.work p).matchString b <;> (intro h; exact h)
  · have := tokens_matchRegexp c p re
    unfold Stream.ofTokens Stream.ofText at this
    simp only [bind, Except.bind, pure, Except.pure] at this
    unfold Except.map
    revert this
    cases (c.withPos p).matchRegexp re <;> cases (runeAt c.work p).matchRegexp re <;> (intro h; exact h)
  · unfold TokenStream.matchRune RuneStream.matchRune
    have h1 : (c.withPos p).work = c.work := rfl
    have h2 : (runeAt c.work p).text = c.work := rfl
    have h3 : (c.withPos p).workOffset = p := rfl
    have h4 : (runeAt c.work p).pos = p := rfl
    rw [h1, h2, h3, h4]
    by_cases hp : p ≥ c.work.length
    · rw [if_pos hp, if_pos hp]
      simp [Except.map, pure, Except.pure, h3, h4]
    · rw [if_neg hp, if_neg hp]
      have key : ∀ (n : Int) (x : Option Nat), Except.map (fun x => (x.1, x.2.workOffset))
          (do let c' ← (c.withPos p).setPos n; return (x, c') : Except Panic (Option Nat × TokenStream)) =
          Except.map (fun x => (x.1, x.2.pos))
          (do let c' ← (runeAt c.work p).setPos n; return (x, c') : Except Panic (Option Nat × RuneStream)) := by
        intro n x
        have := hset n
        revert this
        cases (c.withPos p).setPos n <;> cases (runeAt c.work p).setPos n <;>
          simp [Except.map, bind, Except.bind, pure, Except.pure]
      cases goSlice c.work p c.work.length with
      | error e => rfl
      | ok rest =>
        have hb : ∀ {α β : Type} (x : α) (f : α → Except Panic β), (Except.ok x >>= f) = f x := fun _ _ => rfl
        rw [hb, hb]
        cases rangeRunes rest with
        | nil => exact key _ _
        | cons x more =>
          obtain ⟨_, r⟩ := x
          dsimp only
          cases f r with
          | false => rfl
          | true =>
            simp only [Bool.not_true, Bool.false_eq_true, if_false]
            cases more with
            | nil =>
              dsimp only
              rw [if_pos rfl, if_pos rfl]
              exact key _ _
            | cons y ys =>
              obtain ⟨o, _⟩ := y
              dsimp only
              by_cases ho : p + o = p
              · rw [if_pos ho, if_pos ho]; exact key _ _
              · rw [if_neg ho, if_neg ho]; exact key _ _
  · unfold TokenStream.getUntil RuneStream.getUntil
    have h1 : (c.withPos p).work = c.work := rfl
    have h2 : (runeAt c.work p).text = c.work := rfl
    have h3 : (c.withPos p).workOffset = p := rfl
    have h4 : (runeAt c.work p).pos = p := rfl
    rw [h1, h2, h3, h4]
    cases goSlice c.work p c.work.length with
    | error e => rfl
    | ok rest =>
      simp only [bind, Except.bind]
      cases stringsIndex b rest with
      | none => dsimp only; cases goSlice c.work p c.work.length <;> rfl
      | some o => dsimp only; cases goSlice c.work p ((o + p + b.length : Nat) : Int) <;> rfl

example : ((TokenStream.new (asc "a  b") [⟨asc "a", 0, 0⟩, ⟨asc "b", 3, 1⟩]).matchString (asc "ab")).map
    (fun x => (x.1, x.2.workOffset)) = .ok (some (asc "ab"), 2) := by decide +kernel

/-- `1 - 2` tokenised. -/
def Sample.oneMinusTwo : List Token := [⟨asc "1", 0, 0⟩, ⟨asc "-", 2, 1⟩, ⟨asc "2", 4, 2⟩]

example : Sample.valueOf (parseTokens Sample.ops Sample.minus {} [] 60 () (TokenStream.new (asc "1 - 2") Sample.oneMinusTwo)) =
      some (.arr [.str (asc "1"), .str (asc "2")]) ∧
    Contiguous Sample.oneMinusTwo ∧ (∀ t ∈ Sample.oneMinusTwo, 0 ≤ t.orig) ∧
    (∀ v o h l, Sample.ops.origin v { o with line := l } h = Sample.ops.origin v o h) := by
  refine ⟨by decide +kernel, (contiguous_iff _).mpr ⟨rfl, rfl, rfl, trivial⟩, by decide +kernel, ?_⟩
  intro v o h l
  rfl

/-- C12: building the error message never panics on a token stream. -/
theorem C12_report_never_panics (text : Bytes) (tokens : List Token) (hl : Contiguous tokens)
    (ho : ∀ t ∈ tokens, 0 ≤ t.orig) (pos suc att : Nat) (h1 : pos ≤ suc) (h2 : suc ≤ att)
    (h3 : att ≤ (joined tokens).length) :
    ∃ r, (TokenStream.new text tokens).report pos suc att = .ok r := by
  obtain ⟨r, hr, _⟩ := tokenReport_ok (TokenStream.new text tokens) rfl hl ho pos suc att h1 h2 (by
    show att ≤ (tokens.flatMap (·.repr)).length
    rw [List.flatMap_def]; exact h3)
  exact ⟨r, hr⟩

/-! ## C38 -/

/-- C38: after `SetPos(0)` a stream can be parsed again, with the same outcome. What is missing: without
`SetPos(0)` the second parse starts where the first one stopped, see below. -/
theorem C38_reparse_after_rewind_partial (ops : Ops V H) (g : Grammar) (tr : Trace) (opts : List ParseOption)
    (k : Nat) (h : H) (c : TokenStream) (hc : c.workOffset = 0) (o : Outcome V) (s : St V H) (tr' : Trace)
    (h1 : parseTokens ops g tr opts k h c = (.ok (o, s), tr')) :
    ∃ c', (tokensAfter g c s).setPos 0 = .ok c' ∧ parseTokens ops g tr' opts k h c' = (.ok (o, s), tr') := by
  refine ⟨c, ?_, ?_⟩
  · unfold TokenStream.setPos
    rw [if_neg (by omega)]
    have : ((tokensAfter g c s).withPos 0) = c := by
      rw [← hc]; rfl
    exact congrArg Except.ok this
  · have htr : tr' = tr := by
      have h2 := congrArg Prod.snd h1
      have h3 := congrArg Prod.fst h1
      unfold parseTokens grammarParse at h2 h3
      extract_lets old t' env restored at h2 h3
      have hres : restored = tr := by
        show ({ (if (opts.foldl CtxOptions.apply {}).debug then { tr with stack := true } else tr) with
          stack := tr.stack } : Trace) = tr
        split <;> rfl
      rw [hres] at h2 h3
      revert h2 h3
      cases parse env k g.root (newState h c.workOffset) with
      | panic e => intro h2 h3; cases h3
      | oof => intro h2 h3; cases h3
      | ok x =>
        obtain ⟨r, s2⟩ := x
        dsimp only
        split
        · cases c.report s2.pos _ _ with
          | error e => intro h2 h3; cases h3
          | ok rep => intro h2 _; exact h2.symm
        · cases r <;> (intro h2 _; exact h2.symm)
    rw [htr] at h1 ⊢
    exact h1

/-- C38, what the code does: after a parse that consumed the whole stream the next one starts at its end. -/
theorem C38_second_parse_starts_at_end (ops : Ops V H) (g : Grammar) (tr : Trace) (opts : List ParseOption)
    (k : Nat) (h : H) (c : TokenStream) (v : V) (s : St V H)
    (h1 : (parseTokens ops g tr opts k h c).1 = .ok (.value v, s)) :
    (tokensAfter g c s).workOffset = c.work.length := by
  have hpos : s.pos = c.work.length := by
    unfold parseTokens grammarParse at h1
    extract_lets old t' env restored at h1
    revert h1
    cases parse env k g.root (newState h c.workOffset) with
    | panic e => intro h; cases h
    | oof => intro h; cases h
    | ok x =>
      obtain ⟨r, s2⟩ := x
      dsimp only
      split
      · cases c.report s2.pos _ _ with
        | error e => intro h; cases h
        | ok rep => intro h; cases h
      · rename_i hp
        have hp : s2.pos = c.work.length := Classical.byContradiction hp
        cases r with
        | none => intro h; cases h
        | some v => intro h; cases h; exact hp
  unfold tokensAfter
  rw [if_neg (by omega)]
  exact hpos

/-- C38, what the code does: after a failed parse the stream stays at the furthest position where a rule was
tried, which is where a second parse would start. -/
theorem C38_second_parse_after_error (ops : Ops V H) (g : Grammar) (hg : g.Built) (tr : Trace)
    (opts : List ParseOption) (k : Nat) (h : H) (c : TokenStream) (hc : c.workOffset ≤ c.work.length)
    (rep : Report) (s : St V H)
    (h1 : (parseTokens ops g tr opts k h c).1 = .ok (.error rep, s)) :
    let p := (tokensAfter g c s).workOffset
    s.pos ≤ p ∧ p ≤ c.work.length ∧ (p = s.pos ∨ Attempted s g.numRules p) ∧
      ∀ q, s.pos ≤ q → q ≤ c.work.length → Attempted s g.numRules q → q ≤ p := by
  have hpos : s.pos ≠ c.work.length ∧ s.pos ≤ c.work.length := by
    unfold parseTokens grammarParse at h1
    extract_lets old t' env restored at h1
    revert h1
    have key := parse_top (ops := ops) hg (Stream.ofTokens_valid c) env.trace env.skipLog k h (start := c.workOffset) hc
    change (parse env k g.root (newState h c.workOffset)).Holds _ _ _ at key
    cases hp : parse env k g.root (newState h c.workOffset) with
    | panic e => intro h; cases h
    | oof => intro h; cases h
    | ok x =>
      obtain ⟨r, s2⟩ := x
      have hs : s2.pos ≤ c.work.length := (key.of_ok hp).1.pos
      dsimp only
      split
      · rename_i hp
        cases c.report s2.pos _ _ with
        | error e => intro h; cases h
        | ok rep => intro h; cases h; exact ⟨hp, hs⟩
      · cases r with
        | none => intro h; cases h
        | some v => intro h; cases h
  obtain ⟨hpos, hs⟩ := hpos
  unfold tokensAfter
  rw [if_pos hpos]
  obtain ⟨s1, s2, s3, s4, s5, s6, s7⟩ := scanRows_spec s g.numRules (c.work.length + 1 - s.pos) s.pos s.pos s.pos
    (Nat.le_refl _) (Nat.le_refl _)
  show _ ≤ (scanRows s g.numRules s.pos (c.work.length + 1 - s.pos) (s.pos, s.pos)).1 ∧ _
  refine ⟨s3, ?_, s4.imp_right fun h => h.2.2, fun q h1 h2 => s6 q h1 (by omega)⟩
  show (scanRows s g.numRules s.pos (c.work.length + 1 - s.pos) (s.pos, s.pos)).1 ≤ _
  rcases s4 with h | h <;> omega

/-- After failing on `1 - -`: the first `-` is read, the second is not a number. -/
example :
    let c := TokenStream.new (asc "1 - -") [⟨asc "1", 0, 0⟩, ⟨asc "-", 2, 1⟩, ⟨asc "-", 4, 2⟩]
    (match (parseTokens Sample.ops Sample.minus {} [] 60 () c).1 with
    | .ok (.error _, s) => (tokensAfter Sample.minus c s).workOffset == 2
    | _ => false) = true := by decide +kernel

/-- C38, counterexample: parsing the same stream twice gives a value and then nothing. -/
theorem C38_second_parse_differs :
    let c := TokenStream.new (asc "1 - 2") Sample.oneMinusTwo
    let first := parseTokens Sample.ops Sample.minus {} [] 60 () c
    Sample.valueOf first = some (.arr [.str (asc "1"), .str (asc "2")]) ∧
    ∀ o s, first.1 = .ok (o, s) →
      (parseTokens Sample.ops Sample.minus {} [] 60 () (tokensAfter Sample.minus c s)).1 matches .ok (.nil, _) := by
  refine ⟨by decide +kernel, ?_⟩
  intro o s hos
  have hv : ∃ v, o = .value v := by
    have hk : Sample.valueOf (parseTokens Sample.ops Sample.minus {} [] 60 () (TokenStream.new (asc "1 - 2") Sample.oneMinusTwo)) =
      some (.arr [.str (asc "1"), .str (asc "2")]) := by decide +kernel
    unfold Sample.valueOf at hk
    rw [hos] at hk
    cases o with
    | value v => exact ⟨v, rfl⟩
    | nil => cases hk
    | error r => cases hk
  obtain ⟨v, rfl⟩ := hv
  have := C38_second_parse_starts_at_end _ _ _ _ _ _ _ v s hos
  have e : tokensAfter Sample.minus (TokenStream.new (asc "1 - 2") Sample.oneMinusTwo) s =
      (TokenStream.new (asc "1 - 2") Sample.oneMinusTwo).withPos 3 := by
    show TokenStream.withPos _ _ = _
    exact congrArg (TokenStream.withPos (TokenStream.new (asc "1 - 2") Sample.oneMinusTwo)) this
  rw [e]
  decide +kernel

end Joeson
