import Verif.Proofs.ErrorHandling
import Verif.Props.Deep
import Verif.Props.Bootstrap
import Verif.Props.Readme
/-!
# C82: errors reported as the README recommends
-/

namespace Joeson
open RuleText hiding decimal
open Arith

variable {V H : Type}

/-- The result as an application sees it. -/
def XResult.seen {V' : Type} (see : V → V') : XResult V → XResult V'
  | .ast v => .ast (see v)
  | .failed r => .failed r
  | .nil => .nil
  | .parseError msg => .parseError msg
  | .panics p => .panics p

theorem parseX_panic (err : Nat → Option Bytes) (p : Panic) :
    ∃ x, parseX err (.panic p : Out (Outcome V × St V H)) = some x ∧
      ((∃ c msg, p = .user c ∧ err c = some msg ∧ x = .parseError msg) ∨ ((∀ c msg, p = .user c → err c ≠ some msg) ∧ x = .panics p)) := by
  by_cases hp : ∃ c, p = .user c
  · obtain ⟨c, rfl⟩ := hp
    cases he : err c with
    | some msg => exact ⟨.parseError msg, by simp [parseX, he], .inl ⟨c, msg, rfl, he, rfl⟩⟩
    | none =>
      refine ⟨.panics (.user c), by simp [parseX, he], .inr ⟨fun c' msg h => ?_, rfl⟩⟩
      cases h
      simp [he]
  · refine ⟨.panics p, ?_, .inr ⟨fun c msg h => absurd ⟨c, h⟩ hp, rfl⟩⟩
    cases p <;> first | rfl | exact absurd ⟨_, rfl⟩ hp

theorem parseX_gives {V' : Type} {see : V → V'} {text : Bytes} {r : VRes V'} {o : Out (Outcome V × St V H)} (err : Nat → Option Bytes) (h : GivesSeen see text r o) :
    ∃ x, parseX err o = some x ∧ XAnswers err text r (x.seen see) := by
  match r with
  | .error p =>
    have h : o = .panic p := h
    subst h
    obtain ⟨x, hx, hp⟩ := parseX_panic (V := V) (H := H) err p
    refine ⟨x, hx, hp.imp ?_ ?_⟩
    · rintro ⟨c, msg, h1, h2, rfl⟩
      exact ⟨c, msg, h1, h2, rfl⟩
    · rintro ⟨h1, rfl⟩
      exact ⟨h1, rfl⟩
  | .ok none =>
    unfold GivesSeen at h
    unfold XAnswers
    dsimp only at h ⊢
    split at h
    · obtain ⟨s, rfl⟩ := h
      rename_i ht
      exact ⟨.nil, rfl, by rw [if_pos ht]; rfl⟩
    · rename_i ht
      obtain ⟨rep, s, rfl, _⟩ := h
      exact ⟨.failed rep, rfl, by rw [if_neg ht]; exact ⟨rep, rfl⟩⟩
  | .ok (some (v, rest)) =>
    unfold GivesSeen at h
    unfold XAnswers
    dsimp only at h ⊢
    split at h
    · obtain ⟨x, s, rfl, rfl⟩ := h
      rename_i ht
      exact ⟨.ast x, rfl, by rw [if_pos ht]; rfl⟩
    · rename_i ht
      obtain ⟨rep, s, rfl, _⟩ := h
      exact ⟨.failed rep, rfl, by rw [if_neg ht]; exact ⟨rep, rfl⟩⟩

/-- C82: whatever the grammar and its callbacks: if matching the text ends in a callback that panics with a `ParseError`, `parseX`
returns this error; no alternative is tried after it, and nothing around it sees the error. Other panics stay panics. If
nothing panics it answers what `ParseString` answers. Partial as C76 and C57 are: the kinds of left recursion, the 1024 nested
rules and tracing. -/
theorem C82_parseX_partial (rx : Bytes → Option Regex) (tr0 : Trace) (L : List GLine) (htr0 : TraceOk tr0 L)
    (hg : GoodNames L) (hL : AllLines (TextFits rx L) L) (W : List String) (hW : HelpersOk L W) (name : String) :
    ∃ lines m0, linesOf L = .ok lines ∧ joesonMade = .ok m0 ∧ ∃ k0, ∀ k, k0 ≤ k →
      grammarFromLines (compileRule rx m0.g tr0 k) name lines = .error .stackOverflow ∨
      ∃ m, grammarFromLines (compileRule rx m0.g tr0 k) name lines = .ok m ∧
        ∀ (V V' H : Type) (ops : Ops V H) (P : PureOps V') (see : V → V'), Seen ops P see → ∀ (err : Nat → Option Bytes)
          (tr : Trace) (opts : List ParseOption) (h : H) (text : Bytes) (d : Nat) (r : VRes V'),
          YieldsI P text.length L W none d (.lines L) text r → ∃ k1, ∀ k', k1 ≤ k' →
            ∃ x, parseX err (parseString ops m.g tr opts k' h text).1 = some x ∧
              (XAnswers err text r (x.seen see) ∨ (1024 < d ∧ x = .panics .stackOverflow) ∨
                ((tr.stack = true ∨ ParseOption.debug true ∈ opts) ∧ (∃ b ∈ text, 0x80 ≤ b) ∧ x = .panics .runeError) ∨
                (tr.loop = true ∧ 0 ≤ tr.filterLine ∧ x = .panics .loopStackEmpty)) := by
  obtain ⟨lines, m0, h1, h2, k0, h3⟩ := C76_or_stack_overflow rx tr0 L htr0 hg hL W hW name
  refine ⟨lines, m0, h1, h2, k0, fun k hk => (h3 k hk).imp id ?_⟩
  rintro ⟨m, hm, h4⟩
  refine ⟨m, hm, fun V V' H ops P see hs err tr opts h text d r hy => ?_⟩
  obtain ⟨k1, h5⟩ := h4 V V' H ops P see hs tr opts h text d r hy
  refine ⟨k1, fun k' hk' => ?_⟩
  rcases h5 k' hk' with h6 | ⟨h6, h7⟩ | ⟨h6, h7, h8⟩ | ⟨h6, h7, h8⟩
  · obtain ⟨x, hx, ha⟩ := parseX_gives err h6
    exact ⟨x, hx, .inl ha⟩
  · rw [h7]; exact ⟨_, rfl, .inr (.inl ⟨h6, rfl⟩)⟩
  · rw [h6]; exact ⟨_, rfl, .inr (.inr (.inl ⟨h7, h8, rfl⟩))⟩
  · rw [h6]; exact ⟨_, rfl, .inr (.inr (.inr ⟨h7, h8, rfl⟩))⟩

/-! ## The rule of octal numbers -/

/-- C82, a finding: the text of the rule as the README has it is not the text of a rule, since the backslash is taken for an
escape of the quote that follows. -/
theorem C82_readme_rule_text (rx : Bytes → Option Regex) : ∃ m0, joesonMade = .ok m0 ∧ CompilesTo rx m0.g {} octalText (.panic .badRuleText) := by
  obtain ⟨m0, hm, hg⟩ := Joe.made
  refine ⟨m0, hm, ?_⟩
  rw [hg]
  have hk : ∃ rep s, (parseString ((joesonOps rx).ops Unit) Joe.G {} [] 60 () octalText).1 = .ok (.error rep, s) := by
    have : (match (parseString ((joesonOps rx).ops Unit) Joe.G {} [] 60 () octalText).1 with | .ok (.error _, _) => true | _ => false) = true := by kernel_rfl
    split at this
    · rename_i rep s h
      exact ⟨rep, s, h⟩
    · cases this
  obtain ⟨rep, s, hk⟩ := hk
  refine compilesTo_of (k := 60) (by rw [hk]; simp) ?_
  unfold compileText
  rw [hk]

/-- The regular expression of the rule, compiled, and what it finds. -/
structure OctalClass (rx : Bytes → Option Regex) (r : Regex) : Prop where
  c : rx (asc "[0-7]") = some r
  f : FindsOne IsOctal r

/-- With the backslash written twice. -/
example (r : Regex) : (octalE r).text = asc "'\\\\' [0-7]+" ∧ octalTopE.text = asc "octal_byte_value" := ⟨by kernel_rfl, by kernel_rfl⟩

theorem octal_names (r : Regex) : GoodNames (octalG r) := by
  refine goodNames_of rfl ?_ fun d hd => ?_
  · show (["Input", "octal_byte_value"] : List String).Nodup
    decide
  · have : d.1 ∈ ["Input", "octal_byte_value"] := List.mem_map_of_mem (f := (·.1)) hd
    simp only [List.mem_cons, List.not_mem_nil, or_false] at this
    rcases this with h | h <;> rw [h] <;> decide

variable {rx : Bytes → Option Regex} {r : Regex}

theorem octal_texts (h : OctalClass rx r) : AllLines (TextOk rx (octalG r)) (octalG r) := by
  refine textsOk_rx (by kernel_rfl) ?_
  simp only [octalG, AllLines, GLine.All, Body.All, Expr.RxOk, Units.RxOk, Deco.RxOk, Prim.RxOk, octalE, octalTopE, and_true, true_and]
  exact h.c

/-- C82: with the backslash written twice the rule does with every text what `octalMeaning` says. -/
theorem C82_octal (h : OctalClass rx r) (u : UserString) (text : Bytes) : LibGives rx (octalG r) (octalOps u) text (octalMeaning text) :=
  libGives_of (octal_names r) (octal_texts h) (fun _ _ => rfl) (d := 2) (by decide) (octal_yields h.f text)

/-- The grammar of these lines, built by the library, in `parseX`. -/
def XGives (rx : Bytes → Option Regex) (L : List GLine) (P : PureOps V) (err : Nat → Option Bytes) (text : Bytes) (p : XResult V → Prop) : Prop :=
  ∃ lines m0, linesOf L = .ok lines ∧ joesonMade = .ok m0 ∧ ∃ k0, ∀ k, k0 ≤ k →
    ∃ m, grammarFromLines (compileRule rx m0.g {} k) "" lines = .ok m ∧
      ∃ k1, ∀ k', k1 ≤ k' → ∃ x, parseX err (parseString (P.ops Unit) m.g {} [] k' () text).1 = some x ∧ p x

theorem xgives_of {L : List GLine} {P : PureOps V} {text : Bytes} {r : VRes V} {err : Nat → Option Bytes} (h : LibGives rx L P text r) :
    XGives rx L P err text (XAnswers err text r) := by
  obtain ⟨lines, m0, h1, h2, k0, h3⟩ := h
  refine ⟨lines, m0, h1, h2, k0, fun k hk => ?_⟩
  obtain ⟨m, h4, k1, h5⟩ := h3 k hk
  refine ⟨m, h4, k1, fun k' hk' => ?_⟩
  have h6 : GivesSeen id text r (parseString (P.ops Unit) m.g {} [] k' () text).1 := by
    have := h5 k' hk'
    match r, this with
    | .error e, this => exact this
    | .ok none, this => exact this
    | .ok (some (v, rest)), this =>
      unfold Gives at this
      unfold GivesSeen
      dsimp only at this ⊢
      split at this
      · rename_i hr
        obtain ⟨s, hs⟩ := this
        rw [if_pos hr]
        exact ⟨v, s, hs, rfl⟩
      · rename_i hr
        rw [if_neg hr]
        exact this
  obtain ⟨x, hx, ha⟩ := parseX_gives err h6
  have he : x.seen id = x := by cases x <;> rfl
  exact ⟨x, hx, he ▸ ha⟩

theorem XGives.mono {L : List GLine} {P : PureOps V} {text : Bytes} {err : Nat → Option Bytes} {p q : XResult V → Prop} (hpq : ∀ x, p x → q x)
    (h : XGives rx L P err text p) : XGives rx L P err text q := by
  obtain ⟨lines, m0, h1, h2, k0, h3⟩ := h
  refine ⟨lines, m0, h1, h2, k0, fun k hk => ?_⟩
  obtain ⟨m, h4, k1, h5⟩ := h3 k hk
  refine ⟨m, h4, k1, fun k' hk' => ?_⟩
  obtain ⟨x, hx, hp⟩ := h5 k' hk'
  exact ⟨x, hx, hpq x hp⟩

theorem octalMeaning_digits {ds : Bytes} (hn : ds ≠ []) (hd : ∀ c ∈ ds, IsOctal c) :
    octalMeaning (0x5C :: ds) = match octalResult ds with | .error e => .error e | .ok v => .ok (some (v, [])) := by
  have h12 : ∀ ds : Bytes, (∀ c ∈ ds, IsOctal c) → ds.takeWhile (fun c => decide (IsOctal c)) = ds ∧ ds.dropWhile (fun c => decide (IsOctal c)) = [] := by
    intro ds
    induction ds with
    | nil => intro; exact ⟨rfl, rfl⟩
    | cons c ds ih =>
      intro h
      obtain ⟨i1, i2⟩ := ih fun x hx => h x (List.mem_cons_of_mem _ hx)
      have hc : decide (IsOctal c) = true := by simpa using h c (List.mem_cons_self ..)
      rw [List.takeWhile_cons, List.dropWhile_cons, hc]
      exact ⟨by simpa using i1, by simpa using i2⟩
  obtain ⟨h1, h2⟩ := h12 ds hd
  rw [octalMeaning, h1, h2, if_neg hn]
  rfl

theorem xanswers_user {err : Nat → Option Bytes} {text : Bytes} {c : Nat} {msg : Bytes} (he : err c = some msg) {x : XResult V} (h : XAnswers err text (.error (.user c)) x) :
    x = .parseError msg := by
  rcases h with ⟨c', msg', h1, h2, h3⟩ | ⟨h1, _⟩
  · cases h1
    rw [he] at h2
    cases h2
    exact h3
  · exact absurd he (h1 c msg rfl)

/-- C82: `parseX` with this grammar, for a backslash and octal digits: fewer than three are "too many", more are "too much", and a
number of which the digits read as a *decimal* number are over 255 is "over 255". Otherwise it is the decimal number. -/
theorem C82_octal_errors (h : OctalClass rx r) (u : UserString) (ds : Bytes) (hn : ds ≠ []) (hd : ∀ c ∈ ds, IsOctal c) :
    (ds.length < 3 → XGives rx (octalG r) (octalOps u) octalErrors (0x5C :: ds) (· = .parseError (asc "illegal: too many octal digits"))) ∧
    (3 < ds.length → XGives rx (octalG r) (octalOps u) octalErrors (0x5C :: ds) (· = .parseError (asc "illegal: too much octal digits"))) ∧
    (ds.length = 3 → 255 < decimal ds → XGives rx (octalG r) (octalOps u) octalErrors (0x5C :: ds) (· = .parseError (asc "illegal: octal value over 255"))) ∧
    (ds.length = 3 → decimal ds ≤ 255 → XGives rx (octalG r) (octalOps u) octalErrors (0x5C :: ds) (· = .ast (.int (decimal ds)))) := by
  have h0 := xgives_of (err := octalErrors) (C82_octal h u (0x5C :: ds))
  rw [octalMeaning_digits hn hd] at h0
  unfold octalResult at h0
  refine ⟨fun h1 => ?_, fun h1 => ?_, fun h1 h2 => ?_, fun h1 h2 => ?_⟩
  · rw [if_pos h1] at h0
    exact h0.mono fun x hx => xanswers_user rfl hx
  · rw [if_neg (by omega), if_pos h1] at h0
    exact h0.mono fun x hx => xanswers_user rfl hx
  · rw [if_neg (by omega), if_neg (by omega), if_pos h2] at h0
    exact h0.mono fun x hx => xanswers_user rfl hx
  · rw [if_neg (by omega), if_neg (by omega), if_neg (by omega)] at h0
    exact h0.mono fun x hx => hx

theorem octal_three {ds : Bytes} (hl : ds.length = 3) (hd : ∀ c ∈ ds, IsOctal c) :
    ∃ a b c, a < 8 ∧ b < 8 ∧ c < 8 ∧ decimal ds = 100 * a + 10 * b + c ∧ octal ds = 64 * a + 8 * b + c := by
  match ds, hl with
  | [x, y, z], _ =>
    have key : ∀ c ∈ [x, y, z], 48 ≤ c.toNat ∧ c.toNat ≤ 55 := fun c hc => ⟨UInt8.le_iff_toNat_le.mp (hd c hc).1, UInt8.le_iff_toNat_le.mp (hd c hc).2⟩
    have kx := key x (by simp)
    have ky := key y (by simp)
    have kz := key z (by simp)
    refine ⟨x.toNat - 48, y.toNat - 48, z.toNat - 48, by omega, by omega, by omega, ?_, ?_⟩
    · simp only [decimal, List.foldl_cons, List.foldl_nil]; omega
    · simp only [octal, List.foldl_cons, List.foldl_nil]; omega

/-- C82, a finding: the callback reads the octal digits as decimal ones, so of the three digit numbers only those below 8 get
their value, and those from 174 (`\256`) to 255 (`\377`) are refused. -/
theorem C82_octal_is_read_as_decimal (ds : Bytes) (hl : ds.length = 3) (hd : ∀ c ∈ ds, IsOctal c) :
    octalResult ds = octalMeant ds ↔ octal ds < 8 ∨ 255 < octal ds := by
  obtain ⟨a, b, c, ha, hb, hc, h1, h2⟩ := octal_three hl hd
  unfold octalResult octalMeant
  simp only [hl, if_neg (Nat.lt_irrefl 3), h1, h2]
  by_cases hD : 255 < 100 * a + 10 * b + c
  · rw [if_pos hD]
    by_cases hO : 255 < 64 * a + 8 * b + c
    · rw [if_pos hO]; simp [hO]
    · rw [if_neg hO]
      simp only [reduceCtorEq, false_iff, not_or]
      omega
  · rw [if_neg hD, if_neg (by omega)]
    simp only [Except.ok.injEq, Ast.int.injEq]
    omega

/-- `\377`, which is a byte, is refused. -/
theorem C82_byte_refused (h : OctalClass rx r) (u : UserString) :
    octalMeant (asc "377") = .ok (.int 255) ∧
      XGives rx (octalG r) (octalOps u) octalErrors (asc "\\377") (· = .parseError (asc "illegal: octal value over 255")) :=
  ⟨rfl, (C82_octal_errors h u (asc "377") (by decide) (by decide)).2.2.1 rfl (by decide)⟩

/-- `\142`, the example of the README, which is `b`, gives 142. -/
theorem C82_readme_example (h : OctalClass rx r) (u : UserString) :
    octalMeant (asc "142") = .ok (.int 98) ∧ XGives rx (octalG r) (octalOps u) octalErrors (asc "\\142") (· = .ast (.int 142)) :=
  ⟨rfl, (C82_octal_errors h u (asc "142") (by decide) (by decide)).2.2.2 rfl (by decide)⟩

namespace Sample

/-- `[0-7]` -/
def octalRx (t : Bytes) : Option Regex := if t = asc "[0-7]" then some (classRe fun c => decide (IsOctal c)) else none

theorem octalClass_ex : OctalClass octalRx (classRe fun c => decide (IsOctal c)) := ⟨rfl, classRe_finds fun c => by simp⟩

end Sample

open Sample in
example (u : UserString) : XGives octalRx (octalG (classRe fun c => decide (IsOctal c))) (octalOps u) octalErrors (asc "\\7") (· = .parseError (asc "illegal: too many octal digits")) :=
  (C82_octal_errors octalClass_ex u (asc "7") (by decide) (by decide)).1 (by decide)

open Sample in
/-- The assumptions of `C82_parseX_partial` are met, and an error is what matching ends in. -/
example (u : UserString) : GoodNames (octalG (classRe fun c => decide (IsOctal c))) ∧
    AllLines (TextOk octalRx (octalG (classRe fun c => decide (IsOctal c)))) (octalG (classRe fun c => decide (IsOctal c))) ∧
    HelpersOk (octalG (classRe fun c => decide (IsOctal c))) [] ∧
    YieldsI (octalOps u) 6 (octalG (classRe fun c => decide (IsOctal c))) [] none 2 (.lines (octalG (classRe fun c => decide (IsOctal c)))) (asc "\\7777x") (.error (.user 1)) :=
  ⟨octal_names _, octal_texts octalClass_ex, ⟨nofun, nofun, nofun, fun A nm B h => by cases A <;> cases h⟩, irun_sound 40 _ _ _ _ _ (by kernel_rfl)⟩

example : octalMeaning (asc "\\123x") = .ok (some (.int 123, asc "x")) ∧ octalMeaning (asc "123") = .ok none := ⟨rfl, rfl⟩

end Joeson
