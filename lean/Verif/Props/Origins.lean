import Verif.Proofs.Origins
import Verif.Props.LeftText
/-!
# C60: origins

Values made by the library and by applications remember where they were matched (`GetOrigin`, ast.go:32). Here the values of a
parse with origins are compared with those without (`C60_origins_invisible`); the theorems on the values of grammars written as
rule texts, C53 and C57, are stated for values with origins, and for any other representation of values.
-/

namespace Joeson
open RuleText
variable {V V' H : Type}

theorem givesSeen_of {see : V → V'} {text : Bytes} {r : VRes V'} {o : Out (Outcome V × St V H)} {o' : Out (Outcome V' × St V' Unit)}
    (h : OutRel (fun x y => y.2.pos = x.2.pos ∧ y.2.calls = x.2.calls ∧ y.1 = x.1.seen see) o o') (hg : Gives text r o') :
    GivesSeen see text r o := by
  have ferr : ∀ {rep : Report} {s' : St V' Unit}, o' = .ok (.error rep, s') → ∃ s, o = .ok (.error rep, s) ∧ s'.pos = s.pos := by
    intro rep s' he
    subst he
    match o, h with
    | .ok (.error rep', s), h =>
      have h3 : Outcome.error rep = (Outcome.error rep').seen see := h.2.2
      cases h3
      exact ⟨s, rfl, h.1⟩
    | .ok (.value v, s), h => exact absurd h.2.2 (by simp [Outcome.seen])
    | .ok (.nil, s), h => exact absurd h.2.2 (by simp [Outcome.seen])
  match r, hg with
  | .error e, hg =>
    have hg : o' = .panic e := hg
    subst hg
    match o, h with
    | .panic e', h =>
      have h : e' = e := h
      subst h
      rfl
  | .ok (some (v, rest)), hg =>
    simp only [Gives, GivesSeen] at hg ⊢
    split
    · rename_i hr
      rw [if_pos hr] at hg
      obtain ⟨s', rfl⟩ := hg
      match o, h with
      | .ok (.value x, s), h =>
        have h3 : Outcome.value v = (Outcome.value x).seen see := h.2.2
        cases h3
        exact ⟨x, s, rfl, rfl⟩
      | .ok (.error rep, s), h => exact absurd h.2.2 (by simp [Outcome.seen])
      | .ok (.nil, s), h => exact absurd h.2.2 (by simp [Outcome.seen])
    · rename_i hr
      rw [if_neg hr] at hg
      obtain ⟨rep, s', he, hp⟩ := hg
      obtain ⟨s, hs, hpos⟩ := ferr he
      exact ⟨rep, s, hs, by rw [← hpos]; exact hp⟩
  | .ok none, hg =>
    simp only [Gives, GivesSeen] at hg ⊢
    split
    · rename_i hr
      rw [if_pos hr] at hg
      obtain ⟨s', rfl⟩ := hg
      match o, h with
      | .ok (.nil, s), h => exact ⟨s, rfl⟩
      | .ok (.error rep, s), h => exact absurd h.2.2 (by simp [Outcome.seen])
      | .ok (.value x, s), h => exact absurd h.2.2 (by simp [Outcome.seen])
    · rename_i hr
      rw [if_neg hr] at hg
      obtain ⟨rep, s', he, hp⟩ := hg
      obtain ⟨s, hs, hpos⟩ := ferr he
      exact ⟨rep, s, hs, by rw [← hpos]; exact hp⟩

theorem overflow_of {see : V → V'} {o : Out (Outcome V × St V H)} {o' : Out (Outcome V' × St V' Unit)} {e : Panic}
    (h : OutRel (fun x y => y.2.pos = x.2.pos ∧ y.2.calls = x.2.calls ∧ y.1 = x.1.seen see) o o') (hg : o' = .panic e) : o = .panic e := by
  subst hg
  match o, h with
  | .panic e', h =>
    have h : e' = e := h
    subst h
    rfl

/-- C60: that values remember their origin is invisible otherwise. Callbacks may look at origins, and change them, as long as
what they return does not depend on them. The parse with origins goes as the parse with values that remember nothing: the same
answer, and the same calls of callbacks. -/
theorem C60_origins_invisible (cb : Nat → OVal → Nat → Attrs → Except Panic (Option OVal × Attrs)) (tcb : Nat → Ast → Nat → Except Panic (Option Ast))
    (hcb : ∀ c v p h, (cb c v p h).map (fun x => x.1.map OVal.forget) = tcb c v.forget p) (g : Grammar) (hg : g.Built) (tr : Trace)
    (opts : List ParseOption) (k : Nat) (h : Attrs) (text : Bytes) :
    match (parseString (originOps cb) g tr opts k h text).1, (parseString ((treePure tcb).ops Unit) g tr opts k () text).1 with
    | .ok (o, s), .ok (o', s') => o' = o.seen OVal.forget ∧ s'.pos = s.pos ∧ s'.calls = s.calls
    | .panic e, .panic e' => e = e'
    | .oof, .oof => True
    | _, _ => False := by
  have key := (parseString_seen (H' := Unit) (forget_seen hcb) hg tr opts k h () text).2
  revert key
  generalize (parseString (originOps cb) g tr opts k h text).1 = x
  generalize (parseString ((treePure tcb).ops Unit) g tr opts k () text).1 = y
  intro key
  cases x <;> cases y <;> first | exact key.elim | skip
  · exact ⟨key.2.2, key.1, key.2.1⟩
  · exact key
  · trivial

/-- C53 for values of any representation. The operations on values may have a state, and callbacks too, as long as what is seen
does not depend on it. -/
theorem C53_values_seen_partial (rx : Bytes → Option Regex) (tr0 : Trace) (htr0 : tr0.stack = false) (L : List GLine)
    (hg : GoodNames L) (hL : AllLines (TextOk rx L) L) (name : String) :
    ∃ lines m0, linesOf L = .ok lines ∧ joesonMade = .ok m0 ∧ ∃ k0, ∀ k, k0 ≤ k →
      ∃ m, grammarFromLines (compileRule rx m0.g tr0 k) name lines = .ok m ∧
        ∀ (V V' H : Type) (ops : Ops V H) (P : PureOps V') (see : V → V'), Seen ops P see → ∀ tr : Trace, tr.stack = false → ∀ opts : List ParseOption,
          (∀ b, ParseOption.debug b ∈ opts → b = false) → ∀ (h : H) (text : Bytes) (d : Nat) (r : VRes V'),
          Yields P text.length L d (.lines L) text r → ∃ k1, ∀ k', k1 ≤ k' →
            GivesSeen see text r (parseString ops m.g tr opts k' h text).1 ∨
            (1024 < d ∧ (parseString ops m.g tr opts k' h text).1 = .panic .stackOverflow) := by
  obtain ⟨lines, m0, hl, hm0, k0, hk0⟩ := C53_rule_text_values_partial rx tr0 htr0 L hg hL name
  obtain ⟨lines', m0', hl', hm0', k0', hk0'⟩ := rule_texts_compile rx tr0 htr0 L hg hL name
  cases hl.symm.trans hl'
  cases hm0.symm.trans hm0'
  refine ⟨lines, m0, hl, hm0, max k0 k0', fun k hk => ?_⟩
  obtain ⟨m, hm, hv⟩ := hk0 k (by omega)
  obtain ⟨hc, m', hm'⟩ := hk0' k (by omega)
  obtain ⟨hbuilt, _⟩ := grammar_implV hg hc hl hm
  refine ⟨m, hm, ?_⟩
  intro V V' H ops P see hs tr htr opts ho h text d r hp
  obtain ⟨k1, hk1⟩ := hv V' Unit P hs.none tr htr opts ho () text d r hp
  refine ⟨k1, fun k' hk' => ?_⟩
  have key := (parseString_seen (H' := Unit) hs hbuilt tr opts k' h () text).2
  rcases hk1 k' hk' with h | ⟨h1, h2⟩
  · exact .inl (givesSeen_of key h)
  · exact .inr ⟨h1, overflow_of key h2⟩

/-- C57 for values of any representation, like `C53_values_seen_partial`. -/
theorem C57_values_seen_partial (rx : Bytes → Option Regex) (tr0 : Trace) (htr0 : tr0.stack = false) (L : List GLine)
    (hg : GoodNames L) (hL : AllLines (TextOk rx L) L) (name : String) :
    ∃ lines m0, linesOf L = .ok lines ∧ joesonMade = .ok m0 ∧ ∃ k0, ∀ k, k0 ≤ k →
      ∃ m, grammarFromLines (compileRule rx m0.g tr0 k) name lines = .ok m ∧
        ∀ (V V' H : Type) (ops : Ops V H) (P : PureOps V') (see : V → V'), Seen ops P see → ∀ tr : Trace, tr.stack = false → tr.loop = false →
          ∀ opts : List ParseOption, (∀ b, ParseOption.debug b ∈ opts → b = false) → ∀ (h : H) (text : Bytes) (d : Nat) (r : VRes V'),
          YieldsL P text.length L none d (.lines L) text r → ∃ k1, ∀ k', k1 ≤ k' →
            GivesSeen see text r (parseString ops m.g tr opts k' h text).1 ∨
            (1024 < d ∧ (parseString ops m.g tr opts k' h text).1 = .panic .stackOverflow) := by
  obtain ⟨lines, m0, hl, hm0, k0, hk0⟩ := C57_rule_text_left_recursion_partial rx tr0 htr0 L hg hL name
  obtain ⟨lines', m0', hl', hm0', k0', hk0'⟩ := rule_texts_compile rx tr0 htr0 L hg hL name
  cases hl.symm.trans hl'
  cases hm0.symm.trans hm0'
  refine ⟨lines, m0, hl, hm0, max k0 k0', fun k hk => ?_⟩
  obtain ⟨m, hm, hv⟩ := hk0 k (by omega)
  obtain ⟨hc, m', hm'⟩ := hk0' k (by omega)
  obtain ⟨hbuilt, _⟩ := grammar_implV hg hc hl hm
  refine ⟨m, hm, ?_⟩
  intro V V' H ops P see hs tr htr hloop opts ho h text d r hp
  obtain ⟨k1, hk1⟩ := hv V' Unit P hs.none tr htr hloop opts ho () text d r hp
  refine ⟨k1, fun k' hk' => ?_⟩
  have key := (parseString_seen (H' := Unit) hs hbuilt tr opts k' h () text).2
  rcases hk1 k' hk' with h | ⟨h1, h2⟩
  · exact .inl (givesSeen_of key h)
  · exact .inr ⟨h1, overflow_of key h2⟩

namespace Sample

/-- Callbacks that make a new value of the application, with its own `Attr`. -/
def boxCb : Nat → OVal → Nat → Attrs → Except Panic (Option OVal × Attrs) :=
  fun c v _ h => .ok (some (.user h.new.1 c [v]), h.new.2)

/-- Seen without origins. -/
example : Seen (originOps boxCb) (treePure fun c v _ => .ok (some (.user c [v]))) OVal.forget :=
  forget_seen fun c v p h => by simp only [boxCb, Except.map, Option.map, OVal.forget, forgetAll]

/-- `O(Named("S", "W ';' | A ' ' A")), I(Named("W", "A ' '")), I(Named("A", "x:'a' y:'b'"))` -/
def staleLines : List GLine :=
  [.alt "S" none (.text (.choice [] (.cons [] none (.prim (refE "W")) (.one [0x20] none (.prim (litE ";")))) [0x20]
     (.one (.cons [0x20] none (.prim (refE "A")) (.cons [0x20] none (.prim (litE " ")) (.one [0x20] none (.prim (refE "A")))))) [] [])),
   .incl "W" none (.text (.single (.cons [] none (.prim (refE "A")) (.one [0x20] none (.prim (litE " ")))) [])),
   .incl "A" none (.text (.single (.cons [] (some (asc "x")) (.prim (litE "a")) (.one [0x20] (some (asc "y")) (.prim (litE "b")))) []))]

mutual
/-- The texts of lines. -/
def textsOf : List GLine → List Expr
  | [] => []
  | .alt _ _ b :: ls | .incl _ _ b :: ls => textsOfB b ++ textsOf ls
/-- The texts of a rule. -/
def textsOfB : Body → List Expr
  | .text e => [e]
  | .rank ls => textsOf ls
end

/-- The texts. -/
example : (textsOf staleLines).map Expr.text = [asc "W ';' | A ' ' A", asc "A ' '", asc "x:'a' y:'b'"] := by kernel_rfl

/-- A compiler that gives each of the texts its parser, as the compiler of the library does (C47). -/
def knows (l : List Expr) (t : Bytes) : Except Panic Node :=
  match l.find? fun e => e.text == t with
  | some e => .ok e.node
  | none => .error .assertion

/-- The value of a text, and the origins remembered. -/
def origins (L : List GLine) (text : Bytes) : Option (OVal × List (Option Span)) :=
  match linesOf L with
  | .ok lines => match grammarFromLines (knows (textsOf L)) "" lines with
    | .ok m => match (parseString (originOps fun _ v _ h => .ok (some v, h)) m.g {} [] 1000 Attrs.empty text).1 with
      | .ok (.value v, s) => some (v, (List.range s.h.next).map s.h.at_)
      | _ => none
    | _ => none
  | _ => none

end Sample

open Sample in
/-- C60, the negation: a value does not know where it was matched. In `ab ab` the first `A` is `ab`, from 0 to 2; but the rule
`W`, tried before, has recorded its own origin, from 0 to 3, in the value of `A`, which is remembered although `W ';'` fails. The
origin of the second `A` is right. -/
theorem C60_origin_of_failed_attempt : origins staleLines (asc "ab ab") =
    some (.arr [.map 0 [("x", .str (asc "a")), ("y", .str (asc "b"))], .map 1 [("x", .str (asc "a")), ("y", .str (asc "b"))]],
      [some ⟨0, 3, 0⟩, some ⟨3, 5, 0⟩]) := by kernel_rfl

end Joeson
