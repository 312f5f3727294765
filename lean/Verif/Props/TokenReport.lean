import Verif.Spec.TokenReport
import Verif.Props.TokenStream
import Verif.Props.Report
/-!
# C81: what a parse error of tokenised code shows

`ParseTokens` parses the joined tokens and should report errors in the text they were found in.
-/

namespace Joeson
open Spec
variable {V H : Type}

/-- The message is built from the cursor, the furthest success and the furthest attempt. -/
theorem parseTokens_report (ops : Ops V H) (g : Grammar) (hg : g.Built) (tr : Trace)
    (opts : List ParseOption) (k : Nat) (h : H) (text : Bytes) (tokens : List Token) (hl : Contiguous tokens) (ho : ∀ t ∈ tokens, 0 ≤ t.orig)
    (rep : Report) (s : St V H)
    (he : (parseTokens ops g tr opts k h (TokenStream.new text tokens)).1 = .ok (.error rep, s)) :
    ∃ att, s.pos ≤ rep.char ∧ rep.char ≤ att ∧ att ≤ (joined tokens).length ∧
      (att = s.pos ∨ Attempted s g.numRules att) ∧ (∀ q, s.pos ≤ q → q ≤ (joined tokens).length → Attempted s g.numRules q → q ≤ att) ∧
      (TokenStream.new text tokens).report s.pos rep.char att = .ok rep := by
  have hw : (TokenStream.new text tokens).work = joined tokens := List.flatMap_def ..
  have hsp : s.pos ≤ (joined tokens).length := by
    obtain ⟨h1, h2, -, -⟩ := C38_second_parse_after_error ops g hg tr opts k h (TokenStream.new text tokens) (Nat.zero_le _) rep s he
    rw [hw] at h2
    omega
  unfold parseTokens grammarParse at he
  extract_lets old tr' env restored at he
  cases hp : parse env k g.root (newState h (TokenStream.new text tokens).workOffset) with
  | oof => rw [hp] at he; cases he
  | panic e => rw [hp] at he; cases he
  | ok x =>
    obtain ⟨r, s'⟩ := x
    rw [hp] at he
    dsimp only at he
    have hlen : (Stream.ofTokens (TokenStream.new text tokens)).len = (joined tokens).length := congrArg List.length hw
    rw [hlen] at he
    split at he
    · obtain ⟨s1, s2, s3, s4, s5, s6, s7⟩ := scanRows_spec s' g.numRules ((joined tokens).length + 1 - s'.pos) s'.pos s'.pos
        s'.pos (Nat.le_refl _) (Nat.le_refl _)
      generalize scanRows s' g.numRules s'.pos ((joined tokens).length + 1 - s'.pos) (s'.pos, s'.pos) = sr at *
      obtain ⟨att, suc⟩ := sr
      dsimp only at *
      split at he
      · cases he
      · rename_i rep' hr
        cases he
        have hatt : att ≤ (joined tokens).length := by rcases s4 with h | h <;> omega
        obtain ⟨rep2, hr2, hc, -⟩ := tokenReport_ok (TokenStream.new text tokens) rfl hl ho s.pos suc att s1 s2 (by rw [hw]; exact hatt)
        rw [hr] at hr2
        cases hr2
        subst hc
        exact ⟨att, s1, s2, hatt, s4.imp_right fun h => h.2.2, fun q h1 h2 h3 => s6 q h1 (by omega) h3, hr⟩
    · cases r <;> cases he

/-! ## Places -/

theorem coords_shown {text : Bytes} {tokens : List Token} (hl : Contiguous tokens) {w o : Nat} (h : ShownPlace tokens w o) :
    ((TokenStream.new text tokens).coords w).originalOffset = o := by
  cases h with
  | @inside pre t post n he hp hn hw hO =>
    have ht := hl pre t post he
    rw [(C09_position_partial (TokenStream.new text tokens) hl pre post t he (.inl hp) w (by omega) (by omega)).1]
    omega
  | @only t he hO =>
    have ht := hl [] t [] he
    simp [joined] at ht
    subst he
    show t.orig + ((w : Int) - 0) = o
    omega
  | @last pre p t n he hw hO =>
    have ht := hl (pre ++ [p]) t [] (by rw [he]; simp)
    rw [(C09_last_token (TokenStream.new text tokens) hl pre p t he w (by omega)).1]
    omega

theorem shown_at {text : Bytes} {tokens : List Token} (hl : Contiguous tokens) {w o : Nat} (h : ShownPlace tokens w o) (hO : o ≤ text.length) (p : Nat) :
    ((TokenStream.new text tokens).withPos p).posToLine w = (lineAt text o : Int) ∧
    ((TokenStream.new text tokens).withPos p).posToCol w = .ok ((afterLastNewline (text.take o)).length : Int) :=
  C09_line_col text tokens w o hO (coords_shown hl h)

theorem tokens_peekLines {text : Bytes} {tokens : List Token} (hl : Contiguous tokens) {w o : Nat} (h : ShownPlace tokens w o) (hO : o ≤ text.length) (n : Int) :
    ((TokenStream.new text tokens).withPos w).peekLines [n] = (runeAt text o).peekLines [n] := by
  have h1 := (shown_at hl h hO w).1
  have h2 := (C02_line_col (runeAt text o) (runeAt_valid text hO) o hO).1
  show RuneStream.peekLinesCore text (lineStartsOf text) (((TokenStream.new text tokens).withPos w).posToLine w) n [0] =
    RuneStream.peekLinesCore text (lineStartsOf text) ((runeAt text o).posToLine o) n [0]
  rw [h1, h2]
  rfl

/-- Every place that can be reported is shown somewhere. -/
theorem shownPlace_total (tokens : List Token) (hn : tokens ≠ []) (ho : ∀ t ∈ tokens, 0 ≤ t.orig) (w : Nat) :
    ∃ o, ShownPlace tokens w o := by
  by_cases hlast : ∃ pre p t, tokens = pre ++ [p, t] ∧ (joined (pre ++ [p])).length ≤ w
  · obtain ⟨pre, p, t, he, hw⟩ := hlast
    have := ho t (by rw [he]; simp)
    exact ⟨(t.orig + ((w - (joined (pre ++ [p])).length : Nat) : Int) + (p.repr.length : Int)).toNat, .last he (n := w - (joined (pre ++ [p])).length) (by omega) (by omega)⟩
  · -- walk through the tokens
    have key : ∀ (pre rest : List Token), tokens = pre ++ rest → rest ≠ [] → (joined pre).length ≤ w → ∃ o, ShownPlace tokens w o := by
      intro pre rest
      induction rest generalizing pre with
      | nil => intro _ h; exact absurd rfl h
      | cons t rest ih =>
        intro he _ hw
        have h0 := ho t (by rw [he]; simp)
        cases rest with
        | nil =>
          cases hpre : pre.getLast? with
          | none =>
            have : pre = [] := List.getLast?_eq_none_iff.mp hpre
            subst this
            exact ⟨(t.orig + w).toNat, .only he (by omega)⟩
          | some p =>
            obtain ⟨pre', rfl⟩ := List.getLast?_eq_some_iff.mp hpre
            exact absurd ⟨pre', p, t, by rw [he]; simp, hw⟩ hlast
        | cons t' rest =>
          by_cases h : w < (joined pre).length + t.repr.length
          · exact ⟨(t.orig + ((w - (joined pre).length : Nat) : Int)).toNat, .inside he (by simp) (n := w - (joined pre).length) (by omega) (by omega) (by omega)⟩
          · refine ih (pre ++ [t]) (by rw [he]; simp) (by simp) ?_
            rw [joined_append, List.length_append, joined_cons, joined_nil, List.append_nil]
            omega
    exact key [] tokens rfl hn (Nat.zero_le _)

/-- The whole message, in terms of the places shown. -/
theorem tokenReport_pieces {text : Bytes} {tokens : List Token} (hl : Contiguous tokens) (ho : ∀ t ∈ tokens, 0 ≤ t.orig) (pos suc att : Nat)
    (h1 : pos ≤ suc) (h2 : suc ≤ att) (h3 : att ≤ (joined tokens).length) (rep : Report)
    (hr : (TokenStream.new text tokens).report pos suc att = .ok rep) :
    (runeAt (joined tokens) pos).peekRunes ((suc : Int) - (pos : Int)) = .ok rep.parsing ∧
    (runeAt (joined tokens) suc).peekRunes ((att : Int) - (suc : Int)) = .ok rep.suspect ∧
    (∀ o, ShownPlace tokens pos o → o ≤ text.length →
      rep.printed = (between text (o - 20) o, between text o (o + 40)) ∧ rep.ok = lineRange text (lineAt text o - 2) (lineAt text o)) ∧
    (∀ o, ShownPlace tokens suc o → o ≤ text.length →
      rep.line = lineAt text o ∧ rep.col = (afterLastNewline (text.take o)).length) ∧
    (∀ o, ShownPlace tokens att o → o ≤ text.length → rep.unknown = lineRange text (lineAt text o) (lineAt text o + 2)) := by
  have hw : (TokenStream.new text tokens).work = joined tokens := List.flatMap_def ..
  unfold TokenStream.report at hr
  extract_lets c' at hr
  subst c'
  have hset : ∀ p q : Nat, q ≤ (joined tokens).length → ((TokenStream.new text tokens).withPos p).setPos (q : Int) = .ok ((TokenStream.new text tokens).withPos q) := by
    intro p q hq
    unfold TokenStream.setPos
    rw [if_neg]
    · rfl
    · have : ((TokenStream.new text tokens).withPos p).work = joined tokens := hw
      rw [this]; omega
  cases hcol : ((TokenStream.new text tokens).withPos pos).posToCol suc with
  | error e => rw [hcol] at hr; cases hr
  | ok col =>
  rw [hcol] at hr
  unfold TokenStream.printSlices at hr
  simp only [C14_sliceString_js] at hr
  cases hok : ((TokenStream.new text tokens).withPos pos).peekLines [-2] with
  | error e => rw [hok] at hr; cases hr
  | ok okp =>
  rw [hok, tokens_peekRunes, hw] at hr
  obtain ⟨par, hpar⟩ := peekRunes_nonneg_ok _ (runeAt_valid (joined tokens) (p := pos) (by omega)) ((suc : Int) - (pos : Int)) (by omega)
  rw [hpar, hset pos suc (by omega)] at hr
  obtain ⟨sus, hsus⟩ := peekRunes_nonneg_ok _ (runeAt_valid (joined tokens) (p := suc) (by omega)) ((att : Int) - (suc : Int)) (by omega)
  simp only [bind, Except.bind] at hr
  have hwo : ((TokenStream.new text tokens).withPos suc).workOffset = suc := rfl
  rw [hwo, tokens_peekRunes, hw, hsus] at hr
  dsimp only at hr
  rw [hset suc att (by omega)] at hr
  dsimp only at hr
  cases hunk : ((TokenStream.new text tokens).withPos att).peekLines [2] with
  | error e => rw [hunk] at hr; cases hr
  | ok unk =>
  rw [hunk] at hr
  cases hr
  refine ⟨hpar, hsus, ?_, ?_, ?_⟩
  · intro o hs hO
    refine ⟨?_, ?_⟩
    · have : (((TokenStream.new text tokens).withPos pos).coords ((TokenStream.new text tokens).withPos pos).workOffset).originalOffset = (o : Int) :=
        coords_shown (text := text) hl hs
      show (jsSlice text _ _, jsSlice text _ _) = _
      rw [this]
      have e1 : goMax 0 ((o : Int) - 20) = ((o - 20 : Nat) : Int) := by unfold goMax; split <;> omega
      have e2 : (o : Int) + 40 = ((o + 40 : Nat) : Int) := by omega
      rw [e1, e2, jsSlice_between, jsSlice_between]
    · rw [tokens_peekLines hl hs hO, peekLines_before _ (runeAt_valid text hO)] at hok
      cases hok
      rfl
  · intro o hs hO
    have h := shown_at hl hs hO
    refine ⟨(h att).1, ?_⟩
    have := (h pos).2
    rw [hcol] at this
    exact Except.ok.inj this
  · intro o hs hO
    rw [tokens_peekLines hl hs hO, peekLines_after _ (runeAt_valid text hO)] at hunk
    cases hunk
    rfl

/-! ## C81 -/

/-- C81, what each piece of the message is, for ASCII tokens: Parsing and Suspect are pieces of the joined tokens; line and column, what
`Print` shows, OK and Unknown are those of the places shown, in the text the tokens were found in. What is missing: `ShownPlace` is the
true place only before the last token. -/
theorem C81_parts_partial (ops : Ops V H) (g : Grammar) (hg : g.Built) (tr : Trace)
    (opts : List ParseOption) (k : Nat) (h : H) (text : Bytes) (tokens : List Token) (hl : Contiguous tokens) (ho : ∀ t ∈ tokens, 0 ≤ t.orig)
    (ha : ∀ b ∈ joined tokens, b < 0x80) (rep : Report) (s : St V H)
    (he : (parseTokens ops g tr opts k h (TokenStream.new text tokens)).1 = .ok (.error rep, s)) :
    ∃ att, s.pos ≤ rep.char ∧ rep.char ≤ att ∧ att ≤ (joined tokens).length ∧
      (att = s.pos ∨ Attempted s g.numRules att) ∧ (∀ q, s.pos ≤ q → q ≤ (joined tokens).length → Attempted s g.numRules q → q ≤ att) ∧
      rep.parsing = between (joined tokens) s.pos rep.char ∧
      rep.suspect = between (joined tokens) rep.char att ∧
      (∀ o, ShownPlace tokens s.pos o → o ≤ text.length →
        rep.printed = (between text (o - 20) o, between text o (o + 40)) ∧ rep.ok = lineRange text (lineAt text o - 2) (lineAt text o)) ∧
      (∀ o, ShownPlace tokens rep.char o → o ≤ text.length →
        rep.line = lineAt text o ∧ rep.col = (afterLastNewline (text.take o)).length) ∧
      (∀ o, ShownPlace tokens att o → o ≤ text.length → rep.unknown = lineRange text (lineAt text o) (lineAt text o + 2)) := by
  obtain ⟨att, h1, h2, h3, h5, h6, hr⟩ := parseTokens_report ops g hg tr opts k h text tokens hl ho rep s he
  obtain ⟨e3, e4, e5, e6, e7⟩ := tokenReport_pieces hl ho s.pos rep.char att h1 h2 h3 rep hr
  refine ⟨att, h1, h2, h3, h5, h6, ?_, ?_, e5, e6, e7⟩
  · rw [peekRunes_ascii _ ha _ _ h1 (by omega)] at e3
    exact (Except.ok.inj e3).symm
  · rw [peekRunes_ascii _ ha _ _ h2 h3] at e4
    exact (Except.ok.inj e4).symm

theorem joined_split {l l' r r' : List Token} {t t' : Token} {n n' : Nat} (h : l ++ t :: r = l' ++ t' :: r')
    (hn : n < t.repr.length) (hn' : n' < t'.repr.length) (hw : (joined l).length + n = (joined l').length + n') : l = l' ∧ t = t' ∧ n = n' := by
  induction l generalizing l' with
  | nil =>
    cases l' with
    | nil =>
      simp only [List.nil_append, List.cons.injEq] at h
      simp only [joined_nil, List.length_nil] at hw
      exact ⟨rfl, h.1, by omega⟩
    | cons a l' =>
      simp only [List.nil_append, List.cons_append, List.cons.injEq] at h
      rw [joined_nil, joined_cons, List.length_append, List.length_nil, ← h.1] at hw
      omega
  | cons a l ih =>
    cases l' with
    | nil =>
      simp only [List.nil_append, List.cons_append, List.cons.injEq] at h
      rw [joined_nil, joined_cons, List.length_append, List.length_nil, h.1] at hw
      omega
    | cons b l' =>
      simp only [List.cons_append, List.cons.injEq] at h
      rw [joined_cons, joined_cons, List.length_append, List.length_append, h.1] at hw
      obtain ⟨h1, h2, h3⟩ := ih h.2 (by omega)
      exact ⟨by rw [h.1, h1], h2, h3⟩

/-- C81: an error before the last token is reported with the line and column of its true place in the text the tokens were found in.
What is missing: the last token, see `C81_last_token_place`. -/
theorem C81_place_partial (ops : Ops V H) (g : Grammar) (hg : g.Built) (tr : Trace)
    (opts : List ParseOption) (k : Nat) (h : H) (text : Bytes) (tokens : List Token) (t : Token) (hl : Contiguous (tokens ++ [t]))
    (ho : ∀ x ∈ tokens ++ [t], 0 ≤ x.orig) (rep : Report) (s : St V H)
    (he : (parseTokens ops g tr opts k h (TokenStream.new text (tokens ++ [t]))).1 = .ok (.error rep, s))
    (hc : rep.char < (joined tokens).length) (o : Nat) (hp : PlaceOf (tokens ++ [t]) rep.char o) (hO : o ≤ text.length) :
    rep.line = lineAt text o ∧ rep.col = (afterLastNewline (text.take o)).length := by
  obtain ⟨att, h1, h2, h3, h5, h6, hr⟩ := parseTokens_report ops g hg tr opts k h text _ hl ho rep s he
  refine (tokenReport_pieces hl ho s.pos rep.char att h1 h2 h3 rep hr).2.2.2.1 o ?_ hO
  obtain ⟨pre, x, post, n, e, hn, hw, hO⟩ := hp
  refine .inside e ?_ hn hw hO
  rintro rfl
  obtain ⟨rfl, -⟩ := List.append_inj' e rfl
  omega

/-- C81: an error in the last of several tokens is reported with the line and column of a place that is behind the true one by the length of
the token before it. -/
theorem C81_last_token_place (ops : Ops V H) (g : Grammar) (hg : g.Built) (tr : Trace)
    (opts : List ParseOption) (k : Nat) (h : H) (text : Bytes) (tokens : List Token) (p t : Token) (hl : Contiguous (tokens ++ [p, t]))
    (ho : ∀ x ∈ tokens ++ [p, t], 0 ≤ x.orig) (rep : Report) (s : St V H)
    (he : (parseTokens ops g tr opts k h (TokenStream.new text (tokens ++ [p, t]))).1 = .ok (.error rep, s))
    (hc : (joined (tokens ++ [p])).length ≤ rep.char) (o : Nat) (hp : PlaceOf (tokens ++ [p, t]) rep.char o) (hO : o + p.repr.length ≤ text.length) :
    rep.line = lineAt text (o + p.repr.length) ∧ rep.col = (afterLastNewline (text.take (o + p.repr.length))).length := by
  obtain ⟨att, h1, h2, h3, h5, h6, hr⟩ := parseTokens_report ops g hg tr opts k h text _ hl ho rep s he
  refine (tokenReport_pieces hl ho s.pos rep.char att h1 h2 h3 rep hr).2.2.2.1 _ ?_ hO
  obtain ⟨pre, x, post, n, e, hn, hw, hO⟩ := hp
  have hx : rep.char < (joined (tokens ++ [p, t])).length := by
    rw [e, joined_append, joined_cons, List.length_append, List.length_append]
    omega
  have hx' : (joined (tokens ++ [p, t])).length = (joined (tokens ++ [p])).length + t.repr.length := by
    rw [show tokens ++ [p, t] = (tokens ++ [p]) ++ [t] by simp, joined_append, List.length_append, joined_cons, joined_nil, List.append_nil]
  have e' : pre ++ x :: post = (tokens ++ [p]) ++ t :: [] := by rw [← e]; simp
  obtain ⟨rfl, rfl, rfl⟩ := joined_split e' hn (n' := rep.char - (joined (tokens ++ [p])).length) (by omega) (by omega)
  exact .last rfl (n := rep.char - (joined (tokens ++ [p])).length) (by omega) (by omega)

namespace Sample

/-- Where an error is reported, and the four pieces. -/
def tokenPieces {V H : Type} (x : Out (Outcome V × St V H) × Trace) : Option ((Nat × Nat) × (Int × Int) × List Bytes) :=
  match x.1 with
  | .ok (.error r, s) => some ((s.pos, r.char), (r.line, r.col), [r.printed.1, r.printed.2, r.ok, r.parsing, r.suspect, r.unknown])
  | _ => none

/-- The text `one /* x */`, newline, `b   ;  z`, newline, `last`, without blanks and comment. -/
def spacedText : Bytes := asc "one /* x */\nb   ;  z\nlast"
/-- Its tokens. -/
def spacedTokens : List Token :=
  [⟨asc "one", 0, 0⟩, ⟨asc "\n", 11, 3⟩, ⟨asc "b", 12, 4⟩, ⟨asc ";", 16, 5⟩, ⟨asc "z", 19, 6⟩, ⟨asc "\n", 20, 7⟩, ⟨asc "last", 21, 8⟩]

/-- `one`, newline, and an indented `b` where the text ends. -/
def shortTokens : List Token := [⟨asc "one", 0, 0⟩, ⟨asc "\n", 3, 3⟩, ⟨asc "b", 6, 4⟩]

end Sample

open Sample in
/-- The error is at the `b` (the furthest rule that matched), byte 12 of the text, line 1 and column 0 counted from 0. -/
example : oneLine.Built ∧ Contiguous spacedTokens ∧ (∀ t ∈ spacedTokens, 0 ≤ t.orig) ∧ (∀ b ∈ joined spacedTokens, b < 0x80) ∧
    PlaceOf spacedTokens 4 12 ∧ ShownPlace spacedTokens 6 19 ∧
    tokenPieces (parseTokens Sample.ops oneLine {} [] 60 () (TokenStream.new spacedText spacedTokens)) =
      some ((0, 4), (1, 0), [[], asc "one /* x */\nb   ;  z\nlast", asc "one /* x */", asc "one\n", asc "b;", asc "b   ;  z\nlast"]) := by
  refine ⟨oneLine_built, (contiguous_iff _).mpr ⟨rfl, rfl, rfl, rfl, rfl, rfl, rfl, trivial⟩, by decide +kernel, by decide +kernel, ?_, ?_, by decide +kernel⟩
  · exact ⟨[⟨asc "one", 0, 0⟩, ⟨asc "\n", 11, 3⟩], ⟨asc "b", 12, 4⟩, _, 0, rfl, by decide, rfl, rfl⟩
  · exact .inside (pre := [⟨asc "one", 0, 0⟩, ⟨asc "\n", 11, 3⟩, ⟨asc "b", 12, 4⟩, ⟨asc ";", 16, 5⟩]) (t := ⟨asc "z", 19, 6⟩) (n := 0) rfl (by simp) (by decide) rfl rfl

open Sample in
/-- C81, counterexample: the number after `char:` is not the offset in the text. The error is at byte 12, the message says 4; and Parsing and
Suspect show something that is not in the text. -/
theorem C81_char_is_not_in_the_text : ∃ (rep : Report) (s : St Ast Unit),
    (parseTokens Sample.ops oneLine {} [] 60 () (TokenStream.new spacedText spacedTokens)).1 = .ok (.error rep, s) ∧
    PlaceOf spacedTokens rep.char 12 ∧ rep.char = 4 ∧ ¬ rep.parsing <:+: spacedText ∧ ¬ rep.suspect <:+: spacedText := by
  have h : tokenPieces (parseTokens Sample.ops oneLine {} [] 60 () (TokenStream.new spacedText spacedTokens)) =
      some ((0, 4), (1, 0), [[], asc "one /* x */\nb   ;  z\nlast", asc "one /* x */", asc "one\n", asc "b;", asc "b   ;  z\nlast"]) := by decide +kernel
  unfold tokenPieces at h
  split at h
  · rename_i r s he
    simp only [Option.some.injEq, Prod.mk.injEq, List.cons.injEq, and_true] at h
    refine ⟨r, s, he, ?_, h.1.2, ?_, ?_⟩
    · rw [h.1.2]
      exact ⟨[⟨asc "one", 0, 0⟩, ⟨asc "\n", 11, 3⟩], ⟨asc "b", 12, 4⟩, _, 0, rfl, by decide, rfl, rfl⟩
    · rw [h.2.2.2.2.2.1]; decide +kernel
    · rw [h.2.2.2.2.2.2.1]; decide +kernel
  · cases h

open Sample in
/-- C81, counterexample: an error in the last token is reported one column too far, the length of the newline before it: the `b` is in column 2,
counted from 0, the message says 3. -/
theorem C81_last_token_wrong : ∃ (rep : Report) (s : St Ast Unit),
    (parseTokens Sample.ops oneLine {} [] 60 () (TokenStream.new (asc "one\n  b") shortTokens)).1 = .ok (.error rep, s) ∧
    PlaceOf shortTokens rep.char 6 ∧ (afterLastNewline ((asc "one\n  b").take 6)).length = 2 ∧ rep.col = 3 := by
  have h : tokenPieces (parseTokens Sample.ops oneLine {} [] 60 () (TokenStream.new (asc "one\n  b") shortTokens)) =
      some ((0, 4), (1, 3), [[], asc "one\n  b", asc "one", asc "one\n", [], asc "  b"]) := by decide +kernel
  unfold tokenPieces at h
  split at h
  · rename_i r s he
    simp only [Option.some.injEq, Prod.mk.injEq, List.cons.injEq, and_true] at h
    refine ⟨r, s, he, ?_, by decide +kernel, h.2.1.2⟩
    rw [h.1.2]
    exact ⟨[⟨asc "one", 0, 0⟩, ⟨asc "\n", 3, 3⟩], ⟨asc "b", 6, 4⟩, [], 0, rfl, by decide, rfl, rfl⟩
  · cases h

end Joeson
